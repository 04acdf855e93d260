import Verif.SpecKind
import Verif.Props.Raw
import Verif.Props.Endnotes
import Verif.Props.Extended
import Verif.Api

/-!
# The identifier of a parser: C97
-/

namespace Rustextile

open Prog
open Spec (SameBut)

/-- One identifier instead of the other. -/
def Renamed (b c : Str) (x y : Str) : Prop := x = b ∧ y = c

variable {R : Str → Str → Prop} {b c : Str}

theorem sb_el {n a a' h k : Str} (ha : SameBut R a a') (hh : SameBut R h k) : SameBut R (Spec.elementWith n a h) (Spec.elementWith n a' k) := by
  unfold Spec.elementWith
  exact .append (.same _) (.append (.same _) (.append ha (.append (.same _) (.append hh (.same _)))))

theorem sb_attr {n v w : Str} (h : SameBut R v w) : SameBut R (Spec.attr n (some v)) (Spec.attr n (some w)) := by
  unfold Spec.attr
  exact .append (.same _) (.append (.same _) (.append (.same _) (.append h (.same _))))

theorem sb_flatMap {α : Type} {f g : α → Str} : ∀ {l : List α}, (∀ x ∈ l, SameBut R (f x) (g x)) → SameBut R (l.flatMap f) (l.flatMap g)
  | [], _ => .same _
  | x :: l, h => by
    rw [List.flatMap_cons, List.flatMap_cons]
    exact .append (h x (by simp)) (sb_flatMap fun y hy => h y (List.mem_cons_of_mem _ hy))

theorem sb_join {α : Type} {s : Str} {f g : α → Str} : ∀ {l : List α}, (∀ x ∈ l, SameBut R (f x) (g x)) → SameBut R (Spec.join s (l.map f)) (Spec.join s (l.map g))
  | [], _ => .same _
  | [x], h => h x (by simp)
  | x :: y :: l, h => .append (.append (h x (by simp)) (.same _)) (sb_join (l := y :: l) fun z hz => h z (List.mem_cons_of_mem _ hz))

theorem rn_id (k : Nat) : SameBut (Renamed b c) (Spec.noteId b k) (Spec.noteId c k) := .append (.part ⟨rfl, rfl⟩) (.same _)

theorem rn_hash {v w : Str} (h : SameBut R v w) : SameBut R ('#' :: v) ('#' :: w) := .append (a := t!"#") (b := t!"#") (.same _) h

theorem rn_fn (k : Nat) : SameBut (Renamed b c) (Spec.fnName b k) (Spec.fnName c k) := .append (.same _) (rn_id k)

theorem rn_fnrev (k : Nat) : SameBut (Renamed b c) (Spec.fnrevName b k) (Spec.fnrevName c k) := .append (.same _) (rn_id k)

/-! ## Footnotes -/

theorem rn_ref (M : Spec.Notes) (l : Str) : SameBut (Renamed b c) (Spec.refHtml b M l) (Spec.refHtml c M l) := by
  unfold Spec.refHtml
  split
  · exact sb_el (.same _) (sb_el (sb_attr (rn_hash (rn_fn _))) (.same _))
  · exact sb_el (.append (.same _) (sb_attr (rn_fnrev _))) (sb_el (sb_attr (rn_hash (rn_fn _))) (.same _))

theorem rn_refs {br : Str} : ∀ (rs : List (Str × Str)) (M : Spec.Notes), SameBut (Renamed b c) (Spec.refsHtml br b M rs) (Spec.refsHtml br c M rs)
  | [], _ => .same _
  | _ :: rs, _ => .append (rn_ref _ _) (.append (.same _) (rn_refs rs _))

theorem rn_fnText {br : Str} (t : Spec.FnText) (M : Spec.Notes) : SameBut (Renamed b c) (t.html br b M) (t.html br c M) := .append (.same _) (rn_refs _ _)

theorem rn_fnBlock {br : Str} {r : Bool} {N : Spec.Numbers} {M : Spec.Notes} (x : Spec.FnBlock) : SameBut (Renamed b c) (x.html br r b N M) (x.html br r c N M) := by
  cases x with
  | node _ => exact .same _
  | para t => exact sb_el (.same _) (rn_fnText t _)
  | styled tag a t => exact sb_el (.same _) (rn_fnText t _)
  | note label back t =>
    refine sb_el (.append (.same _) (sb_attr (rn_fn _))) (.append (sb_el (.same _) ?_) (.append (a := t!" ") (b := t!" ") (.same _) (rn_fnText t _)))
    split
    · exact sb_el (sb_attr (rn_hash (rn_fnrev _))) (.same _)
    · exact .same _

theorem rn_sg {br : Str} {r : Bool} {N : Spec.Numbers} {M : Spec.Notes} (x : Spec.SgBlock) : SameBut (Renamed b c) (x.html br r b N M) (x.html br r c N M) := by
  cases x with
  | other x =>
    cases x with
    | other x => exact rn_fnBlock x
    | table _ => exact .same _
  | para _ => exact .same _
  | styled _ _ _ => exact .same _

theorem rn_im {br : Str} {r k : Bool} {N : Spec.Numbers} {M : Spec.Notes} (x : Spec.ImBlock) : SameBut (Renamed b c) (x.html br r k b N M) (x.html br r k c N M) := by
  cases x with
  | other x => exact rn_sg _
  | para _ => exact .same _
  | styled _ _ _ => exact .same _
  | quoted _ _ => exact .same _

theorem rn_raw {br : Str} {h r k : Bool} {N : Spec.Numbers} {M : Spec.Notes} (x : Spec.RawBlock) : SameBut (Renamed b c) (x.html h br r k b N M) (x.html h br r k c N M) := by
  cases x with
  | other x =>
    cases x with
    | other x =>
      cases x with
      | other x =>
        cases x with
        | other x =>
          cases x with
          | other x =>
            cases x with
            | other x =>
              cases x with
              | other x => exact rn_im x
              | table _ => exact .same _
            | dlist _ => exact .same _
          | para _ => exact .same _
          | styled _ _ _ => exact .same _
        | para _ => exact .same _
        | styled _ _ _ => exact .same _
      | cited _ => exact .same _
    | para _ => exact .same _
    | styled _ _ _ => exact .same _
    | quoted _ _ => exact .same _
  | rule _ => exact .same _
  | indented _ => exact .same _

theorem rn_doc {br : Str} {h r k : Bool} : ∀ {ds : List (Spec.RawBlock × Nat)} {N : Spec.Numbers} {M : Spec.Notes},
    SameBut (Renamed b c) (Spec.glue (Spec.rawHtml h br r k b N M ds)) (Spec.glue (Spec.rawHtml h br r k c N M ds))
  | [], _, _ => .same _
  | [d], _, _ => rn_raw d.1
  | d :: e :: ds, N, M => by
    have e1 : ∀ base, Spec.glue (Spec.rawHtml h br r k base N M (d :: e :: ds)) = d.1.html h br r k base N M ++
        (nls (d.2 + 2) ++ Spec.glue (Spec.rawHtml h br r k base (d.1.numbers N r) (d.1.notes M r) (e :: ds))) :=
      fun base => glue_cons (by simp [Spec.rawHtml])
    rw [e1, e1]
    exact .append (rn_raw d.1) (.append (.same _) (rn_doc (ds := e :: ds)))

/-- **C97, part.** Two parsers with the same options but with different identifiers, which are random
unless set, give the same HTML for a document of the blocks of C87, except that one identifier is in the place of the
other.

Missing: other documents.  It is false for texts with a token of one of them (`C97_identifiers_fails`). -/
theorem C97_identifiers_partial (E : Env) (hU : UniOk E.U) (fuel : Nat) (hf : 3 ≤ fuel) (cfg : Cfg) (b c : Str)
    (hb : Spec.PlainBase b) (hc : Spec.PlainBase c)
    (hz : cfg.getSizes = false) (hno : cfg.noimage = false)
    (hbt : cfg.blockTags = true) (hsan : cfg.sanitizer = none) (hdep : 1 ≤ cfg.maxSpanDepth)
    (ok : Char → Prop) (hL : Lowers E.U ok) (ha : ∀ c, c.toNat < 128 → ok c)
    (ds : List (Spec.RawBlock × Nat)) (hne : ds ≠ []) (hok : ∀ d ∈ ds, d.1.Ok E.U.isLu E.U.isNd cfg.lite cfg.restricted)
    (hch : ∀ d ∈ ds, ∀ c ∈ d.1.chars, ok c)
    (hres : ∀ d ∈ ds, d.1.Resolved (Spec.Resolves E.urlParse E.urlJoin cfg.restricted) (Spec.Reads E.urlParse E.urlJoin) (Spec.Absolute E.urlParse) cfg.rel)
    (ht1 : ¬ t!"textileRef:" ++ b ++ t!":" <:+: Spec.rawDocSource ds) (ht2 : ¬ t!"textileRef:" ++ c ++ t!":" <:+: Spec.rawDocSource ds)
    (hn : Spec.rawMarks ds < 2 ^ 31) :
    ∃ one two, parseFresh E fuel ((Setter.uid b).apply cfg) (Spec.rawDocSource ds) = .ok one ∧
      parseFresh E fuel ((Setter.uid c).apply cfg) (Spec.rawDocSource ds) = .ok two ∧ Spec.SameBut (fun x y => x = b ∧ y = c) one two := by
  have h1 := C87_raw_lines E hU fuel hf (cfg.withUid b) b hb rfl rfl rfl hz hno hbt hsan hdep ok hL ha ds hne hok hch hres ht1 hn
  have h2 := C87_raw_lines E hU fuel hf (cfg.withUid c) c hc rfl rfl rfl hz hno hbt hsan hdep ok hL ha ds hne hok hch hres ht2 hn
  exact ⟨_, _, h1, h2, rn_doc⟩

/-! ## Extended blocks -/

theorem rn_exDoc {br : Str} {r k : Bool} : ∀ {ds : List (Spec.ExItem × Nat)} {N : Spec.Numbers} {M : Spec.Notes},
    SameBut (Renamed b c) (Spec.glue (Spec.exHtml br r k b N M ds)) (Spec.glue (Spec.exHtml br r k c N M ds))
  | [], _, _ => .same _
  | d :: ds, N, M => by
    have one : SameBut (Renamed b c) (d.1.html br r k b N M) (d.1.html br r k c N M) := by
      cases d.1 with
      | one x => exact rn_im x
      | verbatim _ _ _ _ => exact .same _
      | styled _ _ _ _ => exact .same _
      | quoted _ _ _ => exact .same _
    cases ds with
    | nil => exact one
    | cons e ds =>
      have e1 : ∀ base, Spec.glue (Spec.exHtml br r k base N M (d :: e :: ds)) = d.1.html br r k base N M ++
          (nls (d.2 + 2) ++ Spec.glue (Spec.exHtml br r k base (d.1.numbers N r) (d.1.notes M r) (e :: ds))) :=
        fun base => glue_cons (by simp [Spec.exHtml])
      rw [e1, e1]
      exact .append one (.append (.same _) (rn_exDoc (ds := e :: ds)))

/-- **C97, part**, for documents with extended blocks as in C67. -/
theorem C97_extended_partial (E : Env) (hU : UniOk E.U) (fuel : Nat) (hf : 3 ≤ fuel) (cfg : Cfg) (b c : Str)
    (hb : Spec.PlainBase b) (hc : Spec.PlainBase c)
    (hz : cfg.getSizes = false) (hno : cfg.noimage = false)
    (hbt : cfg.blockTags = true) (hsan : cfg.sanitizer = none) (hdep : 1 ≤ cfg.maxSpanDepth)
    (ok : Char → Prop) (hL : Lowers E.U ok) (ha : ∀ c, c.toNat < 128 → ok c)
    (ds : List (Spec.ExItem × Nat)) (hne : ds ≠ []) (hok : ∀ d ∈ ds, d.1.Ok E.U.isLu E.U.isNd cfg.lite cfg.restricted)
    (hend : Spec.Ended cfg.lite cfg.restricted ds) (hch : ∀ d ∈ ds, ∀ c ∈ d.1.chars, ok c)
    (hres : ∀ d ∈ ds, d.1.Resolved (Spec.Resolves E.urlParse E.urlJoin cfg.restricted) (Spec.Reads E.urlParse E.urlJoin) cfg.rel)
    (ht1 : ¬ t!"textileRef:" ++ b ++ t!":" <:+: Spec.exSource ds) (ht2 : ¬ t!"textileRef:" ++ c ++ t!":" <:+: Spec.exSource ds)
    (hn : Spec.exMarks ds < 2 ^ 31) :
    ∃ one two, parseFresh E fuel ((Setter.uid b).apply cfg) (Spec.exSource ds) = .ok one ∧
      parseFresh E fuel ((Setter.uid c).apply cfg) (Spec.exSource ds) = .ok two ∧ Spec.SameBut (fun x y => x = b ∧ y = c) one two := by
  have h1 := C67_extended E hU fuel hf (cfg.withUid b) b hb rfl rfl hz hno hbt hsan hdep ok hL ha ds hne hok hend hch hres ht1 hn
  have h2 := C67_extended E hU fuel hf (cfg.withUid c) c hc rfl rfl hz hno hbt hsan hdep ok hL ha ds hne hok hend hch hres ht2 hn
  exact ⟨_, _, h1, h2, rn_exDoc⟩

/-! ## Endnotes -/

theorem rn_note (k : Nat) : SameBut (Renamed b c) (Spec.noteName (Spec.noteId b k)) (Spec.noteName (Spec.noteId c k)) := .append (.same _) (rn_id k)

theorem rn_noteref (k : Nat) : SameBut (Renamed b c) (Spec.noterefName (Spec.noteId b k)) (Spec.noterefName (Spec.noteId c k)) := .append (.same _) (rn_id k)

theorem rn_endRef (B : Spec.Book) (l : Str) : SameBut (Renamed b c) (B.refHtml b l) (B.refHtml c l) := by
  unfold Spec.Book.refHtml
  cases B.ends.find l with
  | none => exact sb_el (.same _) (sb_el (sb_attr (rn_hash (rn_note _))) (sb_el (sb_attr (rn_noteref _)) (.same _)))
  | some n => exact sb_el (.same _) (sb_el (.same _) (sb_el (sb_attr (rn_noteref _)) (.same _)))

theorem rn_endRefs {br : Str} : ∀ (rs : List (Str × Str)) (B : Spec.Book), SameBut (Renamed b c) (Spec.endRefsHtml br b B rs) (Spec.endRefsHtml br c B rs)
  | [], _ => .same _
  | _ :: rs, _ => .append (rn_endRef _ _) (.append (.same _) (rn_endRefs rs _))

theorem rn_enText {br : Str} (t : Spec.EnText) (B : Spec.Book) : SameBut (Renamed b c) (t.html br b B) (t.html br c B) := .append (.same _) (rn_endRefs _ _)

theorem rn_backLink (r i : Nat) : SameBut (Renamed b c) (Spec.noteBackLink b r i) (Spec.noteBackLink c r i) :=
  sb_el (.same _) (sb_el (sb_attr (rn_hash (rn_noteref _))) (.same _))

theorem rn_backLinks : ∀ (rs : List Nat) (i : Nat), SameBut (Renamed b c) (Spec.join t!" " (Spec.backLinksFrom b i rs)) (Spec.join t!" " (Spec.backLinksFrom c i rs))
  | [], _ => .same _
  | [r], i => rn_backLink r i
  | r :: s :: rs, i => .append (.append (rn_backLink r i) (.same _)) (rn_backLinks (s :: rs) (i + 1))

theorem rn_links (n : Spec.EndNote) : SameBut (Renamed b c) (n.links b) (n.links c) := by
  unfold Spec.EndNote.links
  split
  · exact rn_backLinks _ _
  · exact sb_flatMap fun _ _ => rn_backLink _ _
  · exact .same _

theorem rn_item (n : Spec.EndNote) : SameBut (Renamed b c) (n.item b) (n.item c) := by
  unfold Spec.EndNote.item
  split
  · exact sb_el (.same _) (.append (rn_links n) (.append (sb_el (sb_attr (rn_note _)) (.same _)) (.same _)))
  · exact sb_el (.same _) (.append (rn_links n) (.same _))

theorem rn_list (e : Spec.Ends) : SameBut (Renamed b c) (e.list b) (e.list c) := by
  refine sb_el (.same _) (.append (a := t!"\n") (b := t!"\n") (.same _) (.append (sb_join fun n _ => ?_) (.same _)))
  exact .append (a := t!"\t\t") (b := t!"\t\t") (.same _) (rn_item n)

/-- Two lists of texts with the same newlines after them. -/
inductive RnAll (b c : Str) : List (Str × Nat) → List (Str × Nat) → Prop where
  | nil : RnAll b c [] []
  | cons {x y : Str} {n : Nat} {l m : List (Str × Nat)} : SameBut (Renamed b c) x y → RnAll b c l m → RnAll b c ((x, n) :: l) ((y, n) :: m)

theorem RnAll.append {l m l' m' : List (Str × Nat)} (h : RnAll b c l m) (h' : RnAll b c l' m') : RnAll b c (l ++ l') (m ++ m') := by
  induction h with
  | nil => exact h'
  | cons h _ ih => exact .cons h ih

theorem RnAll.glue {l m : List (Str × Nat)} (h : RnAll b c l m) : SameBut (Renamed b c) (Spec.glue l) (Spec.glue m) := by
  induction h with
  | nil => exact .same _
  | cons h h2 ih =>
    cases h2 with
    | nil => exact h
    | cons h3 h4 =>
      have e1 : ∀ (x y : Str × Nat) (l : List (Str × Nat)), Spec.glue (x :: y :: l) = x.1 ++ (nls (x.2 + 2) ++ Spec.glue (y :: l)) :=
        fun x y l => glue_cons (by simp)
      rw [e1 _ (_, _), e1 _ (_, _)]
      exact .append h (.append (.same _) ih)

theorem rn_enHtml {br : Str} {r k : Bool} : ∀ (ds : List (Spec.EnBlock × Nat)) (N : Spec.Numbers) (B : Spec.Book),
    RnAll b c (Spec.enHtml br r k b N B ds) (Spec.enHtml br r k c N B ds)
  | [], _, _ => .nil
  | (x, n) :: ds, N, B => by
    refine RnAll.append ?_ (rn_enHtml ds _ _)
    cases x with
    | other x => exact .cons (rn_im x) .nil
    | para t => exact .cons (sb_el (.same _) (rn_enText t _)) .nil
    | styled tag a t => exact .cons (sb_el (.same _) (rn_enText t _)) .nil
    | define _ _ _ _ => exact .nil

theorem rn_enDoc {br : Str} {r k : Bool} (d : Spec.EnDoc) : SameBut (Renamed b c) (d.html br r k b) (d.html br r k c) := by
  unfold Spec.EnDoc.html
  refine RnAll.glue (RnAll.append (rn_enHtml _ _ _) ?_)
  cases d.list with
  | none => exact .nil
  | some x => exact .cons (rn_list _) (rn_enHtml _ _ _)

/-- **C97, part**, for documents with endnotes as in C65. -/
theorem C97_endnotes_partial (E : Env) (hU : UniOk E.U) (fuel : Nat) (hf : 3 ≤ fuel) (cfg : Cfg) (b c : Str)
    (hb : Spec.PlainBase b) (hc : Spec.PlainBase c)
    (hz : cfg.getSizes = false) (hno : cfg.noimage = false)
    (hbt : cfg.blockTags = true) (hsan : cfg.sanitizer = none) (hdep : 1 ≤ cfg.maxSpanDepth)
    (ok : Char → Prop) (hL : Lowers E.U ok) (ha : ∀ c, c.toNat < 128 → ok c)
    (d : Spec.EnDoc) (hok : d.Ok E.U.isLu E.U.isNd cfg.lite cfg.restricted)
    (hch : ∀ b ∈ d.blocks, ∀ c ∈ b.1.chars, ok c)
    (hres : ∀ b ∈ d.blocks, b.1.Resolved (Spec.Resolves E.urlParse E.urlJoin cfg.restricted) (Spec.Reads E.urlParse E.urlJoin) cfg.rel)
    (ht1 : ¬ t!"textileRef:" ++ b ++ t!":" <:+: d.source) (ht2 : ¬ t!"textileRef:" ++ c ++ t!":" <:+: d.source) (hn : d.marks < 2 ^ 31) :
    ∃ one two, parseFresh E fuel ((Setter.uid b).apply cfg) d.source = .ok one ∧
      parseFresh E fuel ((Setter.uid c).apply cfg) d.source = .ok two ∧ Spec.SameBut (fun x y => x = b ∧ y = c) one two := by
  have h1 := C65_endnotes E hU fuel hf (cfg.withUid b) b hb rfl rfl hz hno hbt hsan hdep ok hL ha d hok hch hres ht1 hn
  have h2 := C65_endnotes E hU fuel hf (cfg.withUid c) c hc rfl rfl hz hno hbt hsan hdep ok hL ha d hok hch hres ht2 hn
  exact ⟨_, _, h1, h2, rn_enDoc d⟩

/-! ## A token in the text -/

/-- **C97, negation.** A parser removes its own token from the text, but not that of another one. -/
theorem C97_identifiers_fails : ∃ one two, parseFresh demoEnv 3 ((Setter.uid t!"abc").apply demoCfg) t!"a textileRef:abc:b" = .ok one ∧
    parseFresh demoEnv 3 ((Setter.uid t!"xyz").apply demoCfg) t!"a textileRef:abc:b" = .ok two ∧
    ¬ Spec.SameBut (fun x y => x = t!"abc" ∧ y = t!"xyz") one two := by
  refine ⟨t!"<p>a b</p>", t!"<p>a textileRef:abc:b</p>", by kernel_rfl, by kernel_rfl, fun h => ?_⟩
  have key : ∀ {x y : Str}, Spec.SameBut (fun x y => x = t!"abc" ∧ y = t!"xyz") x y → x.length = y.length := by
    intro x y h
    induction h with
    | same t => rfl
    | part h => rw [h.1, h.2]; rfl
    | append _ _ h1 h2 => rw [List.length_append, List.length_append, h1, h2]
  exact absurd (key h) (by decide)

/-! ## Examples -/

theorem plainBase_x1 : Spec.PlainBase t!"q1" := by
  refine ⟨by decide, ?_, ?_⟩
  · intro a x y z b e
    have := congrArg List.length e
    simp at this
    omega
  · intro a d x b hd hx e
    match a, e with
    | [], e =>
      simp only [List.nil_append, List.cons.injEq] at e
      rw [← e.1] at hd
      revert hd; decide
    | _ :: [], e => simp at e
    | _ :: _ :: a, e =>
      have := congrArg List.length e
      simp at this

/-- The document of C65, with two endnotes. -/
theorem C97_endnotes_ex : ∃ one two, parseFresh demoEnv 3 ((Setter.uid t!"abc").apply demoCfg) demoEnDoc.source = .ok one ∧
    parseFresh demoEnv 3 ((Setter.uid t!"q1").apply demoCfg) demoEnDoc.source = .ok two ∧ Spec.SameBut (fun x y => x = t!"abc" ∧ y = t!"q1") one two :=
  C97_endnotes_partial demoEnv UniOk.demo 3 (by decide) demoCfg t!"abc" t!"q1" plainBase_demo plainBase_x1 rfl rfl rfl rfl (by decide)
    _ demo_lowers (fun _ h => h) demoEnDoc demoEnDoc_ok (by decide +kernel) demoEnDoc_res (by decide +kernel) (by decide +kernel) (by decide)

theorem C97_extended_ex : ∃ one two, parseFresh demoEnv 3 ((Setter.uid t!"abc").apply demoCfg) (Spec.exSource demoExDoc) = .ok one ∧
    parseFresh demoEnv 3 ((Setter.uid t!"q1").apply demoCfg) (Spec.exSource demoExDoc) = .ok two ∧ Spec.SameBut (fun x y => x = t!"abc" ∧ y = t!"q1") one two :=
  C97_extended_partial demoEnv UniOk.demo 3 (by decide) demoCfg t!"abc" t!"q1" plainBase_demo plainBase_x1 rfl rfl rfl rfl (by decide)
    _ demo_lowers (fun _ h => h) demoExDoc (by decide) demoEx_ok demoEx_ended (by decide +kernel) demoEx_res (by decide +kernel) (by decide +kernel) (by decide)

/-- The document of C56, with footnotes, and that of C87. -/
def demoIdDoc : List (Spec.RawBlock × Nat) :=
  demoFn.map (fun d => (.other (.other (.other (.other (.other (.other (.other (.other (.other (.other d.1))))))))), d.2)) ++ demoRawDoc

theorem C97_identifiers_ex : ∃ one two, parseFresh demoEnv 3 ((Setter.uid t!"abc").apply demoCfg) (Spec.rawDocSource demoIdDoc) = .ok one ∧
    parseFresh demoEnv 3 ((Setter.uid t!"q1").apply demoCfg) (Spec.rawDocSource demoIdDoc) = .ok two ∧ Spec.SameBut (fun x y => x = t!"abc" ∧ y = t!"q1") one two :=
  C97_identifiers_partial demoEnv UniOk.demo 3 (by decide) demoCfg t!"abc" t!"q1" plainBase_demo plainBase_x1 rfl rfl rfl rfl (by decide)
    _ demo_lowers (fun _ h => h) demoIdDoc (by decide) (fun d hd => by
      rcases List.mem_append.1 hd with hd | hd
      · obtain ⟨x, hx, rfl⟩ := List.mem_map.1 hd
        exact demoFn_ok x hx
      · exact demoRaw_ok d hd) (by decide +kernel) (fun d hd => by
      rcases List.mem_append.1 hd with hd | hd
      · obtain ⟨x, hx, rfl⟩ := List.mem_map.1 hd
        simp only [demoFn, List.mem_cons, List.not_mem_nil, or_false] at hx
        rcases hx with rfl | rfl | rfl | rfl | rfl <;> trivial
      · exact demoRaw_res d hd) (by decide +kernel) (by decide +kernel) (by decide)

end Rustextile
