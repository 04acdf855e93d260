import Verif.EndParse
import Verif.Props.Images

/-!
# Endnotes: C38, C65, C66
-/

namespace Rustextile

open Prog

/-- **C65.** A document of paragraphs, headings and quotations with references to notes, of
definitions of notes, and of the blocks of `C63_images`, in any order; perhaps with a list of the notes. -/
theorem C65_endnotes (E : Env) (hU : UniOk E.U) (fuel : Nat) (hf : 3 ≤ fuel) (cfg : Cfg) (base : Str)
    (hb : Spec.PlainBase base) (huid : cfg.uid = t!"textileRef:" ++ base ++ t!":") (hp : cfg.linkPrefix = base ++ t!"-")
    (hz : cfg.getSizes = false) (hno : cfg.noimage = false)
    (hbt : cfg.blockTags = true) (hsan : cfg.sanitizer = none) (hdep : 1 ≤ cfg.maxSpanDepth)
    (ok : Char → Prop) (hL : Lowers E.U ok) (ha : ∀ c, c.toNat < 128 → ok c)
    (d : Spec.EnDoc) (hok : d.Ok E.U.isLu E.U.isNd cfg.lite cfg.restricted)
    (hc : ∀ b ∈ d.blocks, ∀ c ∈ b.1.chars, ok c)
    (hres : ∀ b ∈ d.blocks, b.1.Resolved (Spec.Resolves E.urlParse E.urlJoin cfg.restricted) (Spec.Reads E.urlParse E.urlJoin) cfg.rel)
    (htok : ¬ cfg.uid <:+: d.source) (hn : d.marks < 2 ^ 31) :
    parseFresh E fuel cfg d.source =
      .ok (d.html (if cfg.html5 then t!"<br>" else t!"<br />") cfg.restricted (cfg.alignClass.getD cfg.html5) base) :=
  parse_ends (⟨hU, hf, hb, huid⟩ : DocCtx ⟨E, cfg, fuel⟩ base) hp hz hno hbt hsan hdep ha hL hok hc hres htok (by omega)

/-! ## What becomes of a note -/

theorem findNote_change {E : Spec.Ends} {k l : Str} {f : Spec.EndNote → Spec.EndNote} (hf : ∀ n, (f n).label = n.label) :
    (E.change k f).find l = (E.find l).map (fun n => if n.label = k then f n else n) := by
  unfold Spec.Ends.find Spec.Ends.change
  simp only [List.find?_map]
  congr 2
  funext n
  simp only [Function.comp]
  split
  · rw [hf]
  · rfl

theorem findNote_refs {E : Spec.Ends} {k l : Str} {x : List Nat} : (E.change k (fun n => { n with refs := n.refs ++ x })).find l =
    (E.find l).map (fun n => if n.label = k then { n with refs := n.refs ++ x } else n) := findNote_change (fun _ => rfl)

theorem findNote_body {E : Spec.Ends} {k l : Str} {x : Option Spec.NoteBody} : (E.change k (fun n => { n with body := x })).find l =
    (E.find l).map (fun n => if n.label = k then { n with body := x } else n) := findNote_change (fun _ => rfl)

theorem findNote_label {E : Spec.Ends} {l : Str} {n : Spec.EndNote} (h : E.find l = some n) : n.label = l := by
  have := List.find?_some h
  simpa using this

/-- A note keeps its number and its first reference. -/
def Kept (n m : Spec.EndNote) : Prop := m.id = n.id ∧ m.number = n.number ∧ ∃ rs, m.refs = n.refs ++ rs

theorem Kept.refl (n : Spec.EndNote) : Kept n n := ⟨rfl, rfl, [], by simp⟩

theorem Kept.trans {a b c : Spec.EndNote} (h1 : Kept a b) (h2 : Kept b c) : Kept a c := by
  obtain ⟨a1, a2, r, a3⟩ := h1
  obtain ⟨b1, b2, s, b3⟩ := h2
  exact ⟨b1.trans a1, b2.trans a2, r ++ s, by rw [b3, a3]; simp⟩

theorem refer_kept {B : Spec.Book} {k l : Str} {n : Spec.EndNote} (h : B.ends.find l = some n) :
    ∃ m, (B.refer k).ends.find l = some m ∧ Kept n m ∧ m.body = n.body := by
  unfold Spec.Book.refer
  split
  · simp only
    rw [findNote_refs, h]
    refine ⟨_, rfl, ?_⟩
    dsimp only
    split
    · exact ⟨⟨rfl, rfl, _, rfl⟩, rfl⟩
    · exact ⟨Kept.refl n, rfl⟩
  · refine ⟨n, ?_, Kept.refl n, rfl⟩
    simp only [Spec.Ends.find, List.find?_append] at h ⊢
    rw [h]; rfl

theorem refs_kept {l : Str} : ∀ {rs : List (Str × Str)} {B : Spec.Book} {n : Spec.EndNote}, B.ends.find l = some n →
    ∃ m, (rs.foldl (fun B r => B.refer r.1) B).ends.find l = some m ∧ Kept n m ∧ m.body = n.body
  | [], _, n, h => ⟨n, h, Kept.refl n, rfl⟩
  | r :: rs, _, _, h => by
    obtain ⟨m, h1, h2, h3⟩ := refer_kept (k := r.1) h
    obtain ⟨m', h1', h2', h3'⟩ := refs_kept (rs := rs) h1
    exact ⟨m', h1', h2.trans h2', h3'.trans h3⟩

theorem define_kept {B : Spec.Book} {k l : Str} {b : Spec.NoteBody} {n : Spec.EndNote} (hk : k ≠ l) (h : B.ends.find l = some n) :
    (B.define k b).ends.find l = some n := by
  unfold Spec.Book.define
  split
  · split
    · exact h
    · simp only
      rw [findNote_body, h]
      simp only [Option.map_some, Option.some.injEq]
      rw [if_neg]
      rw [findNote_label h]
      exact fun e => hk e.symm
  · split
    · exact h
    · exact h

theorem define_here {B : Spec.Book} {l : Str} {b : Spec.NoteBody} {n : Spec.EndNote} (h : B.ends.find l = some n) (hn : n.body = none) :
    (B.define l b).ends.find l = some { n with body := some b } := by
  unfold Spec.Book.define
  rw [h]
  simp only [hn, Option.bind_none, Option.isSome_none, Bool.false_eq_true, if_false]
  rw [findNote_body, h]
  simp only [Option.map_some, Option.some.injEq]
  rw [if_pos (findNote_label h)]

/-- A block that defines the label. -/
def defines (l : Str) : Spec.EnBlock → Prop
  | .define k _ _ _ => k = l
  | _ => False

/-- The labels a block refers to, in their order. -/
def refersTo : Spec.EnBlock → List Str
  | .para t | .styled _ _ t => t.refs.map (·.1)
  | _ => []

theorem block_kept {r : Bool} {b : Spec.EnBlock} {l : Str} {B : Spec.Book} {n : Spec.EndNote} (hb : ¬ defines l b) (h : B.ends.find l = some n) :
    ∃ m, (b.book B r).ends.find l = some m ∧ Kept n m ∧ m.body = n.body := by
  cases b with
  | other b => exact ⟨n, h, Kept.refl n, rfl⟩
  | para t => exact refs_kept h
  | styled tag a t => exact refs_kept h
  | define k back gs t => exact ⟨n, define_kept hb h, Kept.refl n, rfl⟩

theorem blocks_kept {r : Bool} {l : Str} : ∀ {ds : List (Spec.EnBlock × Nat)} {B : Spec.Book} {n : Spec.EndNote},
    (∀ d ∈ ds, ¬ defines l d.1) → B.ends.find l = some n →
    ∃ m, (Spec.enBook r B ds).ends.find l = some m ∧ Kept n m ∧ m.body = n.body
  | [], _, n, _, h => ⟨n, h, Kept.refl n, rfl⟩
  | d :: ds, _, _, hd, h => by
    obtain ⟨m, h1, h2, h3⟩ := block_kept (r := r) (hd d (by simp)) h
    obtain ⟨m', h1', h2', h3'⟩ := blocks_kept (r := r) (ds := ds) (fun d h => hd d (by simp [h])) h1
    exact ⟨m', h1', h2.trans h2', h3'.trans h3⟩

theorem refer_none {B : Spec.Book} {k l : Str} (hk : k ≠ l) (h : B.ends.find l = none) : (B.refer k).ends.find l = none := by
  unfold Spec.Book.refer
  split
  · simp only
    rw [findNote_refs, h]
    rfl
  · simp only [Spec.Ends.find, List.find?_append] at h ⊢
    rw [h]
    simp [hk]

theorem refs_none {l : Str} : ∀ {rs : List (Str × Str)} {B : Spec.Book}, (∀ r ∈ rs, r.1 ≠ l) → B.ends.find l = none →
    (rs.foldl (fun B r => B.refer r.1) B).ends.find l = none
  | [], _, _, h => h
  | r :: rs, _, hr, h => refs_none (rs := rs) (fun r h => hr r (by simp [h])) (refer_none (hr r (by simp)) h)

theorem define_none {B : Spec.Book} {k l : Str} {b : Spec.NoteBody} (h : B.ends.find l = none) : (B.define k b).ends.find l = none := by
  unfold Spec.Book.define
  split
  · split
    · exact h
    · simp only
      rw [findNote_body, h]
      rfl
  · split
    · exact h
    · exact h

theorem blocks_none {r : Bool} {l : Str} : ∀ {ds : List (Spec.EnBlock × Nat)} {B : Spec.Book},
    (∀ d ∈ ds, l ∉ refersTo d.1) → B.ends.find l = none → (Spec.enBook r B ds).ends.find l = none
  | [], _, _, h => h
  | d :: ds, B, hd, h => by
    refine blocks_none (r := r) (ds := ds) (fun d h => hd d (by simp [h])) ?_
    have hl := hd d (by simp)
    dsimp only
    cases hb : d.1 with
    | other b => exact h
    | para t =>
      rw [hb] at hl
      exact refs_none (fun x hx e => hl (List.mem_map.2 ⟨x, hx, e⟩)) h
    | styled tag a t =>
      rw [hb] at hl
      exact refs_none (fun x hx e => hl (List.mem_map.2 ⟨x, hx, e⟩)) h
    | define k back gs t => exact define_none h

/-! ## Where the HTML is -/

theorem enHtml_mem (br base : Str) (r k : Bool) {b : Spec.EnBlock} {n : Nat} {h : Str} : ∀ {xs ys : List (Spec.EnBlock × Nat)} {N : Spec.Numbers} {B : Spec.Book},
    (∀ N', b.html br r k base N' (Spec.enBook r B xs) = some h) → (h, n) ∈ Spec.enHtml br r k base N B (xs ++ (b, n) :: ys)
  | [], ys, N, B, e => by simp [Spec.enHtml, show b.html br r k base N B = some h from e N]
  | x :: xs, ys, N, B, e => by
    have := enHtml_mem br base r k (xs := xs) (ys := ys) (N := x.1.numbers N r) (B := x.1.book B r) (b := b) (n := n) (h := h) e
    simp only [List.cons_append, Spec.enHtml, List.mem_append]
    exact .inr this

theorem enHtml_append (br base : Str) (r k : Bool) : ∀ {xs ys : List (Spec.EnBlock × Nat)} {N : Spec.Numbers} {B : Spec.Book},
    Spec.enHtml br r k base N B (xs ++ ys) = Spec.enHtml br r k base N B xs ++
      Spec.enHtml br r k base (Spec.enNumbers r N xs) (Spec.enBook r B xs) ys
  | [], _, _, _ => rfl
  | x :: xs, ys, N, B => by
    simp only [List.cons_append, Spec.enHtml, enHtml_append br base r k (xs := xs), List.append_assoc]
    rfl

/-- The HTML of a block is in that of the document. -/
theorem enDoc_mem (br base : Str) (r k : Bool) {d : Spec.EnDoc} {xs ys : List (Spec.EnBlock × Nat)} {b : Spec.EnBlock} {n : Nat} {h : Str}
    (e : d.blocks = xs ++ (b, n) :: ys) (hb : ∀ N', b.html br r k base N' (Spec.enBook r ⟨⟨[], 0⟩, ⟨[], []⟩⟩ xs) = some h) :
    h <:+: d.html br r k base := by
  have hm := enHtml_mem br base r k (N := fun _ => 1) (B := ⟨⟨[], 0⟩, ⟨[], []⟩⟩) (n := n) (ys := ys) hb
  rw [← e] at hm
  unfold Spec.EnDoc.html
  simp only
  obtain ⟨before, list⟩ := d
  cases list with
  | none =>
    simp only [Spec.EnDoc.blocks] at hm
    simp only
    rw [List.append_nil] at hm
    exact glue_infix (p := (h, n)) (by simpa using hm)
  | some l =>
    simp only [Spec.EnDoc.blocks] at hm
    rw [enHtml_append, List.mem_append] at hm
    refine glue_infix (p := (h, n)) ?_
    simp only [List.mem_append, List.mem_cons]
    exact hm.imp id .inr

theorem endRefs_within (br base l : Str) : ∀ {r1 r2 : List (Str × Str)} {w : Str} {B : Spec.Book},
    Spec.Book.refHtml base (r1.foldl (fun B r => B.refer r.1) B) l <:+: Spec.endRefsHtml br base B (r1 ++ (l, w) :: r2)
  | [], r2, w, B => ⟨[], Spec.breakLines br w ++ Spec.endRefsHtml br base (B.refer l) r2, by simp [Spec.endRefsHtml]⟩
  | r :: r1, r2, w, B => by
    refine (endRefs_within br base l (r1 := r1) (r2 := r2) (w := w) (B := B.refer r.1)).trans ⟨B.refHtml base r.1 ++ Spec.breakLines br r.2, [], ?_⟩
    simp [Spec.endRefsHtml]

theorem mem_byNumeral {n m : Spec.EndNote} : ∀ {l : List Spec.EndNote}, m ∈ Spec.insertByNumeral n l ↔ m = n ∨ m ∈ l
  | [] => by simp [Spec.insertByNumeral]
  | x :: l => by
    rw [Spec.insertByNumeral]
    split
    · simp
    · rw [List.mem_cons, mem_byNumeral (l := l), List.mem_cons]
      grind

theorem mem_listed {E : Spec.Ends} {m : Spec.EndNote} : m ∈ E.listed ↔ m ∈ E.notes := by
  unfold Spec.Ends.listed
  induction E.notes with
  | nil => simp
  | cons n l ih => rw [List.foldr_cons, mem_byNumeral, ih, List.mem_cons]

theorem join_infix {s p : Str} : ∀ {l : List Str}, p ∈ l → p <:+: Spec.join s l
  | [x], h => by
    rw [List.mem_singleton.1 h]
    exact List.infix_refl _
  | x :: y :: l, h => by
    rcases List.mem_cons.1 h with rfl | h
    · exact ⟨[], s ++ Spec.join s (y :: l), by simp [Spec.join]⟩
    · exact (join_infix (s := s) h).trans ⟨x ++ s, [], by simp [Spec.join]⟩

theorem item_within {base : Str} {E : Spec.Ends} {n : Spec.EndNote} (h : n ∈ E.notes) : n.item base <:+: E.list base := by
  have h1 : ('\t' :: '\t' :: n.item base) ∈ E.listed.map (fun n => '\t' :: '\t' :: n.item base) := List.mem_map.2 ⟨n, mem_listed.2 h, rfl⟩
  have h2 : n.item base <:+: '\t' :: '\t' :: n.item base := ⟨['\t', '\t'], [], by simp⟩
  refine (h2.trans (join_infix (s := ['\n']) h1)).trans ?_
  refine ⟨t!"<ol>\n", t!"\n\t</ol>", ?_⟩
  simp [Spec.Ends.list, Spec.elementWith, Spec.olTag]

theorem list_within (br base : Str) (r k : Bool) {d : Spec.EnDoc} (h : d.list.isSome) : (d.book r).ends.list base <:+: d.html br r k base := by
  obtain ⟨before, list⟩ := d
  cases list with
  | none => cases h
  | some l =>
    refine glue_infix (p := (_, l.1)) ?_
    exact List.mem_append.2 (.inr List.mem_cons_self)

/-! ## C38 -/

/-- **C38 (partial).** In the documents of C65 with a list: if a note is defined after the first
reference to it, and only once there, then that reference links to the identifier in the item of the
list that has the text of the definition, and the item links to the reference, unless the definition says
that there should be no such link. -/
theorem C38_defined_later_partial (E : Env) (hU : UniOk E.U) (fuel : Nat) (hf : 3 ≤ fuel) (cfg : Cfg) (base : Str)
    (hb : Spec.PlainBase base) (huid : cfg.uid = t!"textileRef:" ++ base ++ t!":") (hp : cfg.linkPrefix = base ++ t!"-")
    (hz : cfg.getSizes = false) (hno : cfg.noimage = false)
    (hbt : cfg.blockTags = true) (hsan : cfg.sanitizer = none) (hdep : 1 ≤ cfg.maxSpanDepth)
    (ok : Char → Prop) (hL : Lowers E.U ok) (ha : ∀ c, c.toNat < 128 → ok c)
    (d : Spec.EnDoc) (hok : d.Ok E.U.isLu E.U.isNd cfg.lite cfg.restricted)
    (hc : ∀ b ∈ d.blocks, ∀ c ∈ b.1.chars, ok c)
    (hres : ∀ b ∈ d.blocks, b.1.Resolved (Spec.Resolves E.urlParse E.urlJoin cfg.restricted) (Spec.Reads E.urlParse E.urlJoin) cfg.rel)
    (htok : ¬ cfg.uid <:+: d.source) (hn : d.marks < 2 ^ 31) (hlist : d.list.isSome)
    (label : Str) (xs ys zs : List (Spec.EnBlock × Nat)) (lead : Str) (r1 r2 : List (Str × Str)) (w : Str) (n m : Nat)
    (back : Option Spec.Back) (groups : List Spec.Group) (text : Str)
    (hd : d.blocks = xs ++ (.para ⟨lead, r1 ++ (label, w) :: r2⟩, n) :: (ys ++ (.define label back groups text, m) :: zs))
    (hx : ∀ b ∈ xs, label ∉ refersTo b.1) (hr : ∀ r ∈ r1, r.1 ≠ label) (hy : ∀ b ∈ ys ++ zs, ¬ defines label b.1) :
    ∃ out note ref x before number, parseFresh E fuel cfg d.source = .ok out ∧
      t!"<sup><a href=\"#" ++ (note ++ (t!"\"><span id=\"" ++ (ref ++ (t!"\">" ++ (number ++ t!"</span></a></sup>"))))) <:+: out ∧
      t!"<li" ++ (x ++ (t!">" ++ (before ++ (t!"<span id=\"" ++ (note ++ (t!"\"> </span>" ++ (text ++ t!"</li>"))))))) <:+: out ∧
      (back ≠ some .no → t!"<sup><a href=\"#" ++ (ref ++ t!"\">a</a></sup>") <+: before) := by
  generalize hB0 : (⟨⟨[], 0⟩, ⟨[], []⟩⟩ : Spec.Book) = B0
  have hB1 : (r1.foldl (fun B r => B.refer r.1) (Spec.enBook cfg.restricted B0 xs)).ends.find label = none :=
    refs_none hr (blocks_none hx (by subst hB0; rfl))
  generalize hB : r1.foldl (fun B r => B.refer r.1) (Spec.enBook cfg.restricted B0 xs) = B at hB1
  -- the note when it is first referred to
  have hfirst : (B.refer label).ends.find label = some ⟨label, B.ends.notes.length + 1, B.foot.last + 2, [B.foot.last + 1], none⟩ := by
    unfold Spec.Book.refer
    rw [hB1]
    simp only [Spec.Ends.find, List.find?_append] at hB1 ⊢
    rw [hB1]
    simp
  obtain ⟨m1, f1, k1, b1⟩ := refs_kept (rs := r2) hfirst
  obtain ⟨m2, f2, k2, b2⟩ := blocks_kept (r := cfg.restricted) (ds := ys) (fun b h => hy b (List.mem_append.2 (.inl h))) f1
  have f3 := define_here (b := ⟨back, Spec.Atts.html cfg.restricted { groups := groups }, text⟩) f2 (b2.trans b1)
  obtain ⟨m4, f4, k4, b4⟩ := blocks_kept (r := cfg.restricted) (ds := zs) (fun b h => hy b (List.mem_append.2 (.inr h))) f3
  have hbook : d.book cfg.restricted = Spec.enBook cfg.restricted ((Spec.enBook cfg.restricted (r2.foldl (fun B r => B.refer r.1) (B.refer label)) ys).define label
      ⟨back, Spec.Atts.html cfg.restricted { groups := groups }, text⟩) zs := by
    rw [Spec.EnDoc.book, hd, hB0]
    simp only [Spec.enBook, List.foldl_append, List.foldl_cons, Spec.EnBlock.book, Spec.EnText.book] at hB ⊢
    rw [hB]
  rw [← hbook] at f4
  have hk := ((k1.trans k2).trans (b := m2) (c := m4) k4)
  obtain ⟨kid, knum, rs, kref⟩ := hk
  have hm4 : m4 ∈ (d.book cfg.restricted).ends.notes := List.mem_of_find?_eq_some f4
  have hout := C65_endnotes E hU fuel hf cfg base hb huid hp hz hno hbt hsan hdep ok hL ha d hok hc hres htok hn
  refine ⟨_, Spec.noteName (Spec.noteId base (B.foot.last + 2)), Spec.noterefName (Spec.noteId base (B.foot.last + 1)),
    Spec.Atts.html cfg.restricted { groups := groups }, m4.links base, Spec.numeral (B.ends.notes.length + 1), hout, ?_, ?_, ?_⟩
  · refine List.IsInfix.trans ?_ (enDoc_mem _ base cfg.restricted _ hd (h := Spec.elementWith ['p'] [] (Spec.EnText.html _ base
      (Spec.enBook cfg.restricted ⟨⟨[], 0⟩, ⟨[], []⟩⟩ xs) ⟨lead, r1 ++ (label, w) :: r2⟩)) (fun _ => rfl))
    have h1 := endRefs_within (if cfg.html5 then t!"<br>" else t!"<br />") base label (r1 := r1) (r2 := r2) (w := w) (B := Spec.enBook cfg.restricted B0 xs)
    rw [hB] at h1
    rw [hB0]
    refine List.IsInfix.trans ?_ (h1.trans ⟨t!"<p>" ++ Spec.breakLines (if cfg.html5 then t!"<br>" else t!"<br />") lead, t!"</p>", ?_⟩)
    · refine ⟨[], [], ?_⟩
      simp [Spec.Book.refHtml, hB1, Spec.elementWith, Spec.attr, Spec.hrefAttr, Spec.idAttr, Spec.supTag, Spec.spanTag]
    · simp [Spec.elementWith, Spec.EnText.html]
  · refine List.IsInfix.trans ?_ ((item_within (base := base) hm4).trans (list_within _ base cfg.restricted _ hlist))
    refine ⟨[], [], ?_⟩
    simp [Spec.EndNote.item, b4, kid, Spec.elementWith, Spec.liTag, Spec.spanTag, Spec.attr, Spec.idAttr]
  · intro hno'
    simp only [List.cons_append, List.nil_append] at kref
    simp only [Spec.EndNote.links, b4, kref, Option.bind_some]
    have hlet : Spec.backLetter 0 = 'a' := by decide
    match back, hno' with
    | none, _ | some .every, _ =>
      simp only [Option.getD, Spec.backLinksFrom]
      cases h : Spec.backLinksFrom base (0 + 1) rs with
      | nil => exact ⟨[], by simp [Spec.join, Spec.noteBackLink, Spec.elementWith, Spec.supTag, Spec.attr, Spec.hrefAttr, hlet]⟩
      | cons y l => exact ⟨' ' :: Spec.join [' '] (y :: l), by simp [Spec.join, Spec.noteBackLink, Spec.elementWith, Spec.supTag, Spec.attr, Spec.hrefAttr, hlet]⟩
    | some .first, _ => exact ⟨[], by simp [Spec.noteBackLink, Spec.elementWith, Spec.supTag, Spec.attr, Spec.hrefAttr, hlet]⟩
    | some .no, h => exact absurd rfl h

/-! ## The order of the list -/

/-- The first occurrences in a list. -/
def firstOnes (l : List Str) : List Str := l.foldl (fun a x => if x ∈ a then a else a ++ [x]) []

theorem find_none_iff {E : Spec.Ends} {l : Str} : E.find l = none ↔ l ∉ E.notes.map (·.label) := by
  simp [Spec.Ends.find, List.find?_eq_none]

theorem change_labels {E : Spec.Ends} {k : Str} {f : Spec.EndNote → Spec.EndNote} (hf : ∀ n, (f n).label = n.label) :
    (E.change k f).notes.map (·.label) = E.notes.map (·.label) := by
  simp only [Spec.Ends.change, List.map_map]
  apply List.map_congr_left
  intro n _
  simp only [Function.comp]
  split
  · exact hf n
  · rfl

theorem refer_labels {B : Spec.Book} {k : Str} : (B.refer k).ends.notes.map (·.label) =
    if k ∈ B.ends.notes.map (·.label) then B.ends.notes.map (·.label) else B.ends.notes.map (·.label) ++ [k] := by
  unfold Spec.Book.refer
  split
  · rename_i n hn
    rw [if_pos]
    · exact change_labels (fun _ => rfl)
    · exact Decidable.byContradiction fun h => by rw [find_none_iff.2 h] at hn; cases hn
  · rename_i hn
    rw [if_neg (find_none_iff.1 hn)]
    simp

theorem refs_labels : ∀ {rs : List (Str × Str)} {B : Spec.Book}, (rs.foldl (fun B r => B.refer r.1) B).ends.notes.map (·.label) =
    (rs.map (·.1)).foldl (fun a x => if x ∈ a then a else a ++ [x]) (B.ends.notes.map (·.label))
  | [], _ => rfl
  | r :: rs, B => by
    rw [List.foldl_cons, refs_labels (rs := rs), refer_labels]
    rfl

theorem define_labels {B : Spec.Book} {k : Str} {b : Spec.NoteBody} : (B.define k b).ends.notes.map (·.label) = B.ends.notes.map (·.label) := by
  unfold Spec.Book.define
  split
  · split
    · rfl
    · exact change_labels (fun _ => rfl)
  · split <;> rfl

theorem block_labels {r : Bool} {b : Spec.EnBlock} {B : Spec.Book} : (b.book B r).ends.notes.map (·.label) =
    (refersTo b).foldl (fun a x => if x ∈ a then a else a ++ [x]) (B.ends.notes.map (·.label)) := by
  cases b with
  | other b => rfl
  | para t => exact refs_labels
  | styled tag a t => exact refs_labels
  | define k back gs t => exact define_labels

theorem book_labels {r : Bool} : ∀ {ds : List (Spec.EnBlock × Nat)} {B : Spec.Book}, (Spec.enBook r B ds).ends.notes.map (·.label) =
    (ds.flatMap (fun d => refersTo d.1)).foldl (fun a x => if x ∈ a then a else a ++ [x]) (B.ends.notes.map (·.label))
  | [], _ => rfl
  | d :: ds, B => by
    rw [List.flatMap_cons, List.foldl_append, ← block_labels (r := r)]
    exact book_labels (ds := ds)

theorem listed_sorted : ∀ {l : List Spec.EndNote}, l.Pairwise (fun a b => Spec.textBefore (Spec.numeral a.number) (Spec.numeral b.number) = true) →
    l.foldr Spec.insertByNumeral [] = l
  | [], _ => rfl
  | a :: l, h => by
    rw [List.pairwise_cons] at h
    rw [List.foldr_cons, listed_sorted h.2]
    cases l with
    | nil => rfl
    | cons b l => rw [Spec.insertByNumeral, if_pos (h.1 b (by simp))]

theorem digits_sorted : ∀ a < 10, ∀ b < 10, a < b → Spec.textBefore (Spec.numeral a) (Spec.numeral b) = true := by decide

/-- **C66 (partial).** In the documents of C65 with a list and references to at most nine notes: the items are
in the order in which the notes are first referred to, and the number shown in the text for the
note of an item is the position of the item. -/
theorem C66_list_order_partial (E : Env) (hU : UniOk E.U) (fuel : Nat) (hf : 3 ≤ fuel) (cfg : Cfg) (base : Str)
    (hb : Spec.PlainBase base) (huid : cfg.uid = t!"textileRef:" ++ base ++ t!":") (hp : cfg.linkPrefix = base ++ t!"-")
    (hz : cfg.getSizes = false) (hno : cfg.noimage = false)
    (hbt : cfg.blockTags = true) (hsan : cfg.sanitizer = none) (hdep : 1 ≤ cfg.maxSpanDepth)
    (ok : Char → Prop) (hL : Lowers E.U ok) (ha : ∀ c, c.toNat < 128 → ok c)
    (d : Spec.EnDoc) (hok : d.Ok E.U.isLu E.U.isNd cfg.lite cfg.restricted)
    (hc : ∀ b ∈ d.blocks, ∀ c ∈ b.1.chars, ok c)
    (hres : ∀ b ∈ d.blocks, b.1.Resolved (Spec.Resolves E.urlParse E.urlJoin cfg.restricted) (Spec.Reads E.urlParse E.urlJoin) cfg.rel)
    (htok : ¬ cfg.uid <:+: d.source) (hn : d.marks < 2 ^ 31) (hlist : d.list.isSome)
    (h9 : (firstOnes (d.blocks.flatMap (fun b => refersTo b.1))).length ≤ 9) :
    ∃ (out : Str) (notes : List Spec.EndNote), parseFresh E fuel cfg d.source = .ok out ∧
      notes.map (·.label) = firstOnes (d.blocks.flatMap (fun b => refersTo b.1)) ∧
      notes.map (·.number) = (List.range notes.length).map (· + 1) ∧
      t!"<ol>\n" ++ (Spec.join ['\n'] (notes.map (fun n => t!"\t\t" ++ n.item base)) ++ t!"\n\t</ol>") <:+: out := by
  have D : DocCtx ⟨E, cfg, fuel⟩ base := ⟨hU, hf, hb, huid⟩
  have hout := C65_endnotes E hU fuel hf cfg base hb huid hp hz hno hbt hsan hdep ok hL ha d hok hc hres htok hn
  have hfine : BookFine base (d.book cfg.restricted) := by
    refine en_fine D hp hz hno ha hL hok.blocks (fun b hb h => htok (h.trans ?_)) ⟨rfl, by simp⟩
    obtain ⟨before, list⟩ := d
    cases list with
    | none =>
      refine glue_infix (p := (b.1.source, b.2)) ?_
      have : b ∈ before := by simpa [Spec.EnDoc.blocks] using hb
      exact List.mem_append.2 (.inl (List.mem_map.2 ⟨b, this, rfl⟩))
    | some l =>
      refine glue_infix (p := (b.1.source, b.2)) ?_
      rcases List.mem_append.1 hb with h | h
      · exact List.mem_append.2 (.inl (List.mem_map.2 ⟨b, h, rfl⟩))
      · exact List.mem_append.2 (.inr (List.mem_cons_of_mem _ (List.mem_map.2 ⟨b, h, rfl⟩)))
  have hlab : (d.book cfg.restricted).ends.notes.map (·.label) = firstOnes (d.blocks.flatMap (fun b => refersTo b.1)) := book_labels
  have hlen : (d.book cfg.restricted).ends.notes.length ≤ 9 := by
    rw [← hlab, List.length_map] at h9
    exact h9
  refine ⟨_, (d.book cfg.restricted).ends.notes, hout, hlab, hfine.numbers, ?_⟩
  have hl : (d.book cfg.restricted).ends.listed = (d.book cfg.restricted).ends.notes := by
    apply listed_sorted
    have h1 : ((d.book cfg.restricted).ends.notes.map (·.number)).Pairwise (fun a b => Spec.textBefore (Spec.numeral a) (Spec.numeral b) = true) := by
      rw [hfine.numbers, List.pairwise_map, List.pairwise_iff_getElem]
      intro i j hi hj hij
      simp only [List.length_range] at hi hj
      simp only [List.getElem_range]
      exact digits_sorted _ (by omega) _ (by omega) (by omega)
    rwa [List.pairwise_map] at h1
  refine List.IsInfix.trans ?_ (list_within _ base cfg.restricted _ hlist)
  refine ⟨[], [], ?_⟩
  simp [Spec.Ends.list, hl, Spec.elementWith, Spec.olTag]

/-- **C66 is false in general**: with ten notes, the item of the tenth is the second one. -/
theorem C66_list_order_fails : ∃ x y, parseFresh demoEnv 3 demoCfg t!"x[#a][#b][#c][#d][#e][#f][#g][#h][#i][#j]\n\nnotelist." = .ok (x ++ (
    t!"<ol>\n\t\t<li><sup><a href=\"#noterefabc-1\">a</a></sup> Undefined Note [#a].</li>\n" ++ (
    t!"\t\t<li><sup><a href=\"#noterefabc-19\">a</a></sup> Undefined Note [#j].</li>\n" ++ y))) :=
  ⟨t!"<p>x<sup><a href=\"#noteabc-2\"><span id=\"noterefabc-1\">1</span></a></sup><sup><a href=\"#noteabc-4\"><span id=\"noterefabc-3\">2</span></a></sup><sup><a href=\"#noteabc-6\"><span id=\"noterefabc-5\">3</span></a></sup><sup><a href=\"#noteabc-8\"><span id=\"noterefabc-7\">4</span></a></sup><sup><a href=\"#noteabc-10\"><span id=\"noterefabc-9\">5</span></a></sup><sup><a href=\"#noteabc-12\"><span id=\"noterefabc-11\">6</span></a></sup><sup><a href=\"#noteabc-14\"><span id=\"noterefabc-13\">7</span></a></sup><sup><a href=\"#noteabc-16\"><span id=\"noterefabc-15\">8</span></a></sup><sup><a href=\"#noteabc-18\"><span id=\"noterefabc-17\">9</span></a></sup><sup><a href=\"#noteabc-20\"><span id=\"noterefabc-19\">10</span></a></sup></p>\n\n",
   t!"\t\t<li><sup><a href=\"#noterefabc-3\">a</a></sup> Undefined Note [#b].</li>\n\t\t<li><sup><a href=\"#noterefabc-5\">a</a></sup> Undefined Note [#c].</li>\n\t\t<li><sup><a href=\"#noterefabc-7\">a</a></sup> Undefined Note [#d].</li>\n\t\t<li><sup><a href=\"#noterefabc-9\">a</a></sup> Undefined Note [#e].</li>\n\t\t<li><sup><a href=\"#noterefabc-11\">a</a></sup> Undefined Note [#f].</li>\n\t\t<li><sup><a href=\"#noterefabc-13\">a</a></sup> Undefined Note [#g].</li>\n\t\t<li><sup><a href=\"#noterefabc-15\">a</a></sup> Undefined Note [#h].</li>\n\t\t<li><sup><a href=\"#noterefabc-17\">a</a></sup> Undefined Note [#i].</li>\n\t</ol>", by decide +kernel⟩

/-! ## Examples -/

def enTextB (up : Char → Bool) (t : Spec.EnText) : Bool :=
  t.texts.all (fun p => proseB up p && !spaceEnd p) && (t.lead.head? != none && t.lead.head? != some ' ' && t.lead.head? != some '\n') &&
  t.refs.all (fun r => !r.1.isEmpty && r.1.all Spec.isLetterOrDigit)

theorem enText_of_B {up : Char → Bool} {t : Spec.EnText} (h : enTextB up t = true) : t.Ok up := by
  simp only [enTextB, Bool.and_eq_true, List.all_eq_true, bne_iff_ne, ne_eq, Bool.not_eq_true', List.isEmpty_eq_false_iff] at h
  obtain ⟨⟨h1, ⟨h2, h3⟩, h4⟩, h5⟩ := h
  refine ⟨fun p hp => ⟨prose_of_B (h1 p hp).1, fun h => ?_⟩, ?_, fun r hr => h5 r hr⟩
  · have h' := (h1 p hp).2
    rw [spaceEnd_iff.2 h] at h'
    cases h'
  · cases e : t.lead with
    | nil => rw [e] at h2; exact absurd rfl h2
    | cons c u =>
      rw [e] at h3 h4
      exact ⟨c, u, rfl, by simpa using h3, by simpa using h4⟩

def demoRefs : Spec.EnText := ⟨t!"Mice", [(t!"b", t!"\nand cats"), (t!"a", t!"."), (t!"b", [])]⟩

/-- Two notes, one with three references and attributes. -/
def demoEnDoc : Spec.EnDoc where
  before := [(.para demoRefs, 0), (.define t!"b" none [.classes t!"x" none] t!"see below", 0), (.other (.para demoIm), 1)]
  list := some (0, [(.styled t!"h2" {} ⟨t!"More", [(t!"b", t!" text")]⟩, 0), (.define t!"a" (some .first) [] t!"of all kinds", 0)])

theorem demoEnDoc_blocks : demoEnDoc.blocks = [(.para demoRefs, 0), (.define t!"b" none [.classes t!"x" none] t!"see below", 0), (.other (.para demoIm), 1),
    (.styled t!"h2" {} ⟨t!"More", [(t!"b", t!" text")]⟩, 0), (.define t!"a" (some .first) [] t!"of all kinds", 0)] := rfl

theorem demoEnDoc_ok : demoEnDoc.Ok demoUni.isLu demoUni.isNd false false := by
  refine ⟨?_, by simp [demoEnDoc_blocks], fun _ => by decide, fun _ => by decide⟩
  intro d hd
  rw [demoEnDoc_blocks] at hd
  simp only [List.mem_cons, List.not_mem_nil, or_false] at hd
  rcases hd with rfl | rfl | rfl | rfl | rfl
  · exact ⟨enText_of_B (by decide +kernel), noBlockStart_head (by decide), by decide⟩
  · refine ⟨⟨by decide, by decide⟩, ⟨?_, by simp⟩, fun h => (by cases h), ⟨prose_of_B (by decide +kernel), by decide, ⟨'s', _, rfl, by decide⟩, ?_⟩⟩
    · simp only [List.mem_cons, List.not_mem_nil, or_false]
      rintro g rfl
      exact ⟨by unfold Spec.NameChar; decide, by decide, by simp⟩
    · rw [← spaceEnd_iff]; decide
  · exact demoIm_ok _ rfl (.para demoIm, 0) (by simp [demoImDoc])
  · exact ⟨enText_of_B (by decide +kernel), ⟨by simp, by simp⟩, fun _ => trivial, rfl, by decide, by decide⟩
  · refine ⟨⟨by decide, by decide⟩, ⟨by simp, by simp⟩, fun h => (by cases h), ⟨prose_of_B (by decide +kernel), by decide, ⟨'o', _, rfl, by decide⟩, ?_⟩⟩
    rw [← spaceEnd_iff]; decide

theorem demoEnDoc_res : ∀ d ∈ demoEnDoc.blocks, d.1.Resolved (Spec.Resolves demoEnv.urlParse demoEnv.urlJoin false) (Spec.Reads demoEnv.urlParse demoEnv.urlJoin) none := by
  intro d hd
  rw [demoEnDoc_blocks] at hd
  simp only [List.mem_cons, List.not_mem_nil, or_false] at hd
  rcases hd with rfl | rfl | rfl | rfl | rfl
  · trivial
  · trivial
  · exact demoIm_res (.para demoIm, 0) (by simp [demoImDoc])
  · trivial
  · trivial

/-- Its HTML. -/
theorem C65_endnotes_ex : parseFresh demoEnv 3 demoCfg
    t!"Mice[#b]\nand cats[#a].[#b]\n\nnote#b(x). see below\n\nSee !>(photo){border:none}/cat.png(R&D's cat)!:http://a.org/cats\nand !http://a.org/b.png!.\n\n\nnotelist.\n\nh2. More[#b] text\n\nnote#a^. of all kinds" =
    .ok t!"<p>Mice<sup><a href=\"#noteabc-2\"><span id=\"noterefabc-1\">1</span></a></sup><br>\nand cats<sup><a href=\"#noteabc-4\"><span id=\"noterefabc-3\">2</span></a></sup>.<sup><a href=\"#note\"><span id=\"noterefabc-5\">1</span></a></sup></p>\n\n<p>See <a href=\"http://a.org/cats\"><img alt=\"R&amp;D's cat\" class=\"photo align-right\" src=\"/cat.png\" style=\"border:none;\" title=\"R&amp;D's cat\" /></a><br>\nand <img alt=\"\" src=\"http://a.org/b.png\" />.</p>\n\n\n<ol>\n\t\t<li class=\"x\"><sup><a href=\"#noterefabc-1\">a</a></sup> <sup><a href=\"#noterefabc-5\">b</a></sup> <sup><a href=\"#noterefabc-6\">c</a></sup><span id=\"noteabc-2\"> </span>see below</li>\n\t\t<li><sup><a href=\"#noterefabc-3\">a</a></sup><span id=\"noteabc-4\"> </span>of all kinds</li>\n\t</ol>\n\n<h2>More<sup><a href=\"#note\"><span id=\"noterefabc-6\">1</span></a></sup> text</h2>" := by
  have := C65_endnotes demoEnv UniOk.demo 3 (by decide) demoCfg t!"abc" plainBase_demo rfl rfl rfl rfl rfl rfl (by decide)
    _ demo_lowers (fun _ h => h) demoEnDoc demoEnDoc_ok (by decide +kernel) demoEnDoc_res (by decide +kernel) (by decide)
  refine Eq.trans (Eq.trans ?_ this) ?_ <;> exact congrArg _ (by decide +kernel)

/-- The second note there, which is defined after the list. -/
theorem C38_defined_later_ex : ∃ out note ref x before number, parseFresh demoEnv 3 demoCfg demoEnDoc.source = .ok out ∧
    t!"<sup><a href=\"#" ++ (note ++ (t!"\"><span id=\"" ++ (ref ++ (t!"\">" ++ (number ++ t!"</span></a></sup>"))))) <:+: out ∧
    t!"<li" ++ (x ++ (t!">" ++ (before ++ (t!"<span id=\"" ++ (note ++ (t!"\"> </span>" ++ (t!"of all kinds" ++ t!"</li>"))))))) <:+: out ∧
    (some Spec.Back.first ≠ some .no → t!"<sup><a href=\"#" ++ (ref ++ t!"\">a</a></sup>") <+: before) :=
  C38_defined_later_partial demoEnv UniOk.demo 3 (by decide) demoCfg t!"abc" plainBase_demo rfl rfl rfl rfl rfl rfl (by decide)
    _ demo_lowers (fun _ h => h) demoEnDoc demoEnDoc_ok (by decide +kernel) demoEnDoc_res (by decide +kernel) (by decide) rfl
    t!"a" [] [(.define t!"b" none [.classes t!"x" none] t!"see below", 0), (.other (.para demoIm), 1), (.styled t!"h2" {} ⟨t!"More", [(t!"b", t!" text")]⟩, 0)] []
    t!"Mice" [(t!"b", t!"\nand cats")] [(t!"b", [])] t!"." 0 0 (some .first) [] t!"of all kinds" rfl
    (by simp) (by simp) (by simp [defines])

/-- The order of its list. -/
theorem C66_list_order_ex : ∃ (out : Str) (notes : List Spec.EndNote), parseFresh demoEnv 3 demoCfg demoEnDoc.source = .ok out ∧
    notes.map (·.label) = [t!"b", t!"a"] ∧ notes.map (·.number) = (List.range notes.length).map (· + 1) ∧
    t!"<ol>\n" ++ (Spec.join ['\n'] (notes.map (fun n => t!"\t\t" ++ n.item t!"abc")) ++ t!"\n\t</ol>") <:+: out :=
  C66_list_order_partial demoEnv UniOk.demo 3 (by decide) demoCfg t!"abc" plainBase_demo rfl rfl rfl rfl rfl rfl (by decide)
    _ demo_lowers (fun _ h => h) demoEnDoc demoEnDoc_ok (by decide +kernel) demoEnDoc_res (by decide +kernel) (by decide) rfl (by decide)

end Rustextile
