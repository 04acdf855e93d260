import Verif.TableDoc
import Verif.Props.Footnotes

/-!
# Tables: C57, C58, C59
-/

namespace Rustextile

open Prog

/-- **C57.** A document of tables, with or without sections, with ordinary and heading cells, and
of the blocks of `C56_footnotes`, in any order. -/
theorem C57_tables (E : Env) (hU : UniOk E.U) (fuel : Nat) (hf : 3 ≤ fuel) (cfg : Cfg) (base : Str)
    (hb : Spec.PlainBase base) (huid : cfg.uid = t!"textileRef:" ++ base ++ t!":") (hp : cfg.linkPrefix = base ++ t!"-")
    (hbt : cfg.blockTags = true) (hsan : cfg.sanitizer = none) (hdep : 1 ≤ cfg.maxSpanDepth)
    (ok : Char → Prop) (hL : Lowers E.U ok) (ha : ∀ c, c.toNat < 128 → ok c)
    (ds : List (Spec.TbBlock × Nat)) (hne : ds ≠ []) (hok : ∀ d ∈ ds, d.1.Ok E.U.isLu E.U.isNd cfg.lite cfg.restricted)
    (hc : ∀ d ∈ ds, ∀ c ∈ d.1.chars, ok c)
    (hres : ∀ d ∈ ds, d.1.Resolved (Spec.Resolves E.urlParse E.urlJoin cfg.restricted) cfg.rel)
    (htok : ¬ cfg.uid <:+: Spec.tbSource ds)
    (hn : Spec.tbMarks ds < 2 ^ 31) :
    parseFresh E fuel cfg (Spec.tbSource ds) =
      .ok (Spec.tbDocHtml (if cfg.html5 then t!"<br>" else t!"<br />") cfg.restricted base ds) :=
  parse_tables (⟨hU, hf, hb, huid⟩ : DocCtx ⟨E, cfg, fuel⟩ base) hp hbt hsan hdep ha hL hne hok hc hres htok (by omega)

/-! ## The order of the rows -/

theorem InOrder.append : ∀ {xs ys : List Str} {u v : Str}, Spec.InOrder xs u → Spec.InOrder ys v → Spec.InOrder (xs ++ ys) (u ++ v)
  | [], ys, u, v, _, h => by
    cases ys with
    | nil => trivial
    | cons y ys =>
      obtain ⟨a, b, rfl, h⟩ := h
      exact ⟨u ++ a, b, by simp, h⟩
  | x :: xs, ys, u, v, ⟨a, b, e, h1⟩, h => ⟨a, b ++ v, by rw [e]; simp, InOrder.append h1 h⟩

theorem InOrder.within {xs : List Str} {u : Str} (a b : Str) (h : Spec.InOrder xs u) : Spec.InOrder xs (a ++ (u ++ b)) := by
  have := InOrder.append (InOrder.append (xs := []) (u := a) trivial h) (ys := []) (v := b) trivial
  simpa using this

theorem InOrder.flatMap {α : Type} (f : α → Str) : ∀ (l : List α), Spec.InOrder (l.map f) (l.flatMap f)
  | [] => trivial
  | x :: l => ⟨[], l.flatMap f, by simp, InOrder.flatMap f l⟩

theorem sectionsHtml_order : ∀ {ss : List (Spec.Sect × List Spec.Row)},
    Spec.InOrder ((ss.flatMap (·.2)).map Spec.Row.html) (ss.flatMap Spec.sectionHtml)
  | [] => trivial
  | s :: ss => by
    rw [List.flatMap_cons, List.flatMap_cons, List.map_append]
    refine InOrder.append ?_ sectionsHtml_order
    have := InOrder.within (t!"\n\t" ++ ('<' :: (s.1.tag ++ ['>']))) (t!"\n\t" ++ ('<' :: '/' :: (s.1.tag ++ ['>']))) (InOrder.flatMap Spec.Row.html s.2)
    simpa [Spec.sectionHtml, Spec.elementWith] using this

theorem sections_flat : ∀ rs : List Spec.Row, (Spec.sections rs).1 ++ (Spec.sections rs).2.flatMap (·.2) = rs
  | [] => rfl
  | r :: rs => by
    have := sections_flat rs
    unfold Spec.sections
    cases r.sect <;> simp [this]

theorem sections_none : ∀ {rs : List Spec.Row}, (∀ r ∈ rs, r.sect = none) → (Spec.sections rs).2 = []
  | [], _ => rfl
  | r :: rs, h => by
    have := sections_none (rs := rs) (fun r hr => h r (by simp [hr]))
    simp [Spec.sections, h r (by simp), this]

theorem table_order {rs : List Spec.Row} (h : (∀ r ∈ rs, r.sect = none) ∨ ∃ r qs, rs = r :: qs ∧ r.sect ≠ none) :
    Spec.InOrder (rs.map Spec.Row.html) (Spec.tableHtml rs) := by
  have hf := sections_flat rs
  have key : Spec.InOrder (rs.map Spec.Row.html) ((Spec.sections rs).2.flatMap Spec.sectionHtml ++ (Spec.sections rs).1.flatMap Spec.Row.html) := by
    rcases h with h | ⟨r, qs, e, h⟩
    · have h2 := sections_none h
      rw [h2] at hf ⊢
      simp at hf
      have := InOrder.flatMap Spec.Row.html (Spec.sections rs).1
      rw [hf] at this ⊢
      simpa using this
    · have h1 : (Spec.sections rs).1 = [] := by
        rw [e, Spec.sections]
        cases hs : r.sect with
        | none => exact absurd hs h
        | some m => rfl
      rw [h1] at hf ⊢
      simp at hf
      have := sectionsHtml_order (ss := (Spec.sections rs).2)
      rw [hf] at this
      simpa using this
  have := InOrder.within ('\t' :: '<' :: (Spec.tableTag ++ ['>'])) (t!"\n\t" ++ ('<' :: '/' :: (Spec.tableTag ++ ['>']))) key
  simpa [Spec.tableHtml, Spec.elementWith] using this

theorem tbHtml_mem (br base : Str) (restricted : Bool) {b : Spec.TbBlock} {k : Nat} : ∀ {ds : List (Spec.TbBlock × Nat)} {N : Spec.Numbers} {M : Spec.Notes},
    (b, k) ∈ ds → ∃ N' M', (b.html br restricted base N' M', k) ∈ Spec.tbHtml br restricted base N M ds
  | [], _, _, h => by cases h
  | d :: ds, N, M, h => by
    rcases List.mem_cons.1 h with rfl | h
    · exact ⟨N, M, by simp [Spec.tbHtml]⟩
    · obtain ⟨N', M', h'⟩ := tbHtml_mem br base restricted (ds := ds) (N := d.1.numbers N) (M := d.1.notes M) h
      exact ⟨N', M', by simp [Spec.tbHtml, h']⟩

/-- The HTML of a table occurs in the HTML of the document. -/
theorem table_in_doc (br base : Str) (restricted : Bool) {ds : List (Spec.TbBlock × Nat)} {rs : List Spec.Row} {k : Nat} (h : (.table rs, k) ∈ ds) :
    ∃ a b, Spec.tbDocHtml br restricted base ds = a ++ (Spec.tableHtml rs ++ b) := by
  have hm : ((.table rs : Spec.TbBlock), k) ∈ Spec.tbSeen restricted ds := by
    unfold Spec.tbSeen
    split
    · exact List.mem_map.2 ⟨_, h, rfl⟩
    · exact h
  obtain ⟨N', M', h'⟩ := tbHtml_mem br base restricted (N := fun _ => 1) (M := ⟨[], 0⟩) hm
  obtain ⟨a, b, e⟩ := glue_infix h'
  exact ⟨a, b, by rw [Spec.tbDocHtml, ← e]; simp [Spec.TbBlock.html]⟩

/-- **C58 (partial).** In the same documents, the rows of a table come out in the order in which they
are written if the table has no sections or starts with one. -/
theorem C58_row_order_partial (E : Env) (hU : UniOk E.U) (fuel : Nat) (hf : 3 ≤ fuel) (cfg : Cfg) (base : Str)
    (hb : Spec.PlainBase base) (huid : cfg.uid = t!"textileRef:" ++ base ++ t!":") (hp : cfg.linkPrefix = base ++ t!"-")
    (hbt : cfg.blockTags = true) (hsan : cfg.sanitizer = none) (hdep : 1 ≤ cfg.maxSpanDepth)
    (ok : Char → Prop) (hL : Lowers E.U ok) (ha : ∀ c, c.toNat < 128 → ok c)
    (ds : List (Spec.TbBlock × Nat)) (hok : ∀ d ∈ ds, d.1.Ok E.U.isLu E.U.isNd cfg.lite cfg.restricted)
    (hc : ∀ d ∈ ds, ∀ c ∈ d.1.chars, ok c)
    (hres : ∀ d ∈ ds, d.1.Resolved (Spec.Resolves E.urlParse E.urlJoin cfg.restricted) cfg.rel)
    (htok : ¬ cfg.uid <:+: Spec.tbSource ds)
    (hn : Spec.tbMarks ds < 2 ^ 31) (rs : List Spec.Row) (k : Nat) (hrs : (.table rs, k) ∈ ds)
    (hs : (∀ r ∈ rs, r.sect = none) ∨ ∃ r qs, rs = r :: qs ∧ r.sect ≠ none) :
    ∃ out, parseFresh E fuel cfg (Spec.tbSource ds) = .ok out ∧ Spec.InOrder (rs.map Spec.Row.html) out := by
  refine ⟨_, C57_tables E hU fuel hf cfg base hb huid hp hbt hsan hdep ok hL ha ds (List.ne_nil_of_mem hrs) hok hc hres htok hn, ?_⟩
  obtain ⟨a, b, e⟩ := table_in_doc (if cfg.html5 then t!"<br>" else t!"<br />") base cfg.restricted hrs
  rw [e]
  exact InOrder.within a b (table_order hs)

def anyFrom (p : Str → Bool) : Str → Bool
  | [] => p []
  | c :: t => p (c :: t) || anyFrom p t

theorem anyFrom_of {p : Str → Bool} : ∀ {a t : Str}, p t = true → anyFrom p (a ++ t) = true
  | [], [], h => h
  | [], c :: t, h => by simp [anyFrom, h]
  | d :: a, t, h => by simp [anyFrom, anyFrom_of (a := a) h]

/-- `Spec.InOrder`, as a program. -/
def inOrderB : List Str → Str → Bool
  | [], _ => true
  | x :: xs, t => anyFrom (fun s => x.isPrefixOf s && inOrderB xs (s.drop x.length)) t

theorem inOrderB_of : ∀ {xs : List Str} {t : Str}, Spec.InOrder xs t → inOrderB xs t = true
  | [], t, _ => by simp [inOrderB]
  | x :: xs, t, ⟨a, b, e, h⟩ => by
    rw [inOrderB, e]
    exact anyFrom_of (by simp [inOrderB_of h])

def looseTable : List Spec.Row := [⟨none, [⟨false, t!"a"⟩]⟩, ⟨some .head, [⟨true, t!"b"⟩]⟩]

theorem demo_cell {h : Bool} {t : Str} (hw : wordsB demoUni.isLu t = true) (hs : h = true ∨ (t.head? ≠ some '.' ∧ t.head? ≠ some '/')) :
    (⟨h, t⟩ : Spec.Cell).Ok demoUni.isLu := by
  refine ⟨words_of_B hw, fun hh x u e => ?_⟩
  simp only at hh e
  rw [hh, e] at hs
  simpa using hs

/-- **C58 is false in general**: rows before the first section come after all sections. -/
theorem C58_row_order_fails : ∃ out, parseFresh demoEnv 3 demoCfg (Spec.tableSource looseTable) = .ok out ∧
    ¬ Spec.InOrder (looseTable.map Spec.Row.html) out := by
  have := C57_tables demoEnv UniOk.demo 3 (by decide) demoCfg t!"abc" plainBase_demo rfl rfl rfl rfl (by decide)
    _ demo_lowers (fun _ h => h) [(.table looseTable, 0)] (by simp) ?_ (by decide +kernel) (by simp [Spec.TbBlock.Resolved]) (by decide +kernel) (by decide)
  · refine ⟨_, this, fun h => ?_⟩
    have := inOrderB_of h
    revert this
    decide +kernel
  · intro d hd
    rw [List.mem_singleton] at hd
    subst hd
    refine ⟨rfl, by decide, ?_⟩
    intro r hr
    simp only [looseTable, List.mem_cons, List.not_mem_nil, or_false] at hr
    rcases hr with rfl | rfl <;> refine ⟨by simp, ?_⟩ <;> intro c hc <;> rw [List.mem_singleton] at hc <;> subst hc <;>
      exact demo_cell (by decide +kernel) (by decide)

/-! ## Text before a table -/

/-- **C59 (partial).** In the documents of C57, the text of every cell of every table is kept. -/
theorem C59_cell_kept_partial (E : Env) (hU : UniOk E.U) (fuel : Nat) (hf : 3 ≤ fuel) (cfg : Cfg) (base : Str)
    (hb : Spec.PlainBase base) (huid : cfg.uid = t!"textileRef:" ++ base ++ t!":") (hp : cfg.linkPrefix = base ++ t!"-")
    (hbt : cfg.blockTags = true) (hsan : cfg.sanitizer = none) (hdep : 1 ≤ cfg.maxSpanDepth)
    (ok : Char → Prop) (hL : Lowers E.U ok) (ha : ∀ c, c.toNat < 128 → ok c)
    (ds : List (Spec.TbBlock × Nat)) (hok : ∀ d ∈ ds, d.1.Ok E.U.isLu E.U.isNd cfg.lite cfg.restricted)
    (hc : ∀ d ∈ ds, ∀ c ∈ d.1.chars, ok c)
    (hres : ∀ d ∈ ds, d.1.Resolved (Spec.Resolves E.urlParse E.urlJoin cfg.restricted) cfg.rel)
    (htok : ¬ cfg.uid <:+: Spec.tbSource ds)
    (hn : Spec.tbMarks ds < 2 ^ 31) (rs : List Spec.Row) (k : Nat) (hrs : (.table rs, k) ∈ ds) (r : Spec.Row) (hr : r ∈ rs) (c : Spec.Cell) (hcr : c ∈ r.cells) :
    ∃ out, parseFresh E fuel cfg (Spec.tbSource ds) = .ok out ∧ (t!">" ++ c.text ++ t!"</" ++ c.tag ++ t!">") <:+: out := by
  refine ⟨_, C57_tables E hU fuel hf cfg base hb huid hp hbt hsan hdep ok hL ha ds (List.ne_nil_of_mem hrs) hok hc hres htok hn, ?_⟩
  obtain ⟨a, b, e⟩ := table_in_doc (if cfg.html5 then t!"<br>" else t!"<br />") base cfg.restricted hrs
  rw [e]
  have h1 : (t!">" ++ c.text ++ t!"</" ++ c.tag ++ t!">") <:+: c.html := ⟨t!"\n\t\t\t<" ++ c.tag, [], by simp [Spec.Cell.html, Spec.elementWith]⟩
  have flat : ∀ {α : Type} (f : α → Str) {x : α} {l : List α}, x ∈ l → f x <:+: l.flatMap f := by
    intro α f x l hx
    obtain ⟨u, v, rfl⟩ := List.append_of_mem hx
    exact ⟨u.flatMap f, v.flatMap f, by simp⟩
  have h2 : c.html <:+: r.html := by
    refine (flat Spec.Cell.html hcr).trans ?_
    exact ⟨t!"\n\t\t<tr>", t!"\n\t\t</tr>", by simp [Spec.Row.html, Spec.elementWith]⟩
  have h3 : r.html <:+: Spec.tableHtml rs := by
    have hf := sections_flat rs
    rw [← hf] at hr
    rcases List.mem_append.1 hr with hr | hr
    · refine (flat Spec.Row.html hr).trans ?_
      exact ⟨t!"\t<table>" ++ (Spec.sections rs).2.flatMap Spec.sectionHtml, t!"\n\t</table>", by simp [Spec.tableHtml, Spec.elementWith, Spec.tableTag]⟩
    · obtain ⟨s, hs, hr⟩ := List.mem_flatMap.1 hr
      refine (flat Spec.Row.html hr).trans (List.IsInfix.trans (l₂ := Spec.sectionHtml s) ?_ ((flat Spec.sectionHtml hs).trans ?_))
      · exact ⟨t!"\n\t<" ++ s.1.tag ++ t!">", t!"\n\t</" ++ s.1.tag ++ t!">", by simp [Spec.sectionHtml, Spec.elementWith]⟩
      · exact ⟨t!"\t<table>", (Spec.sections rs).1.flatMap Spec.Row.html ++ t!"\n\t</table>", by simp [Spec.tableHtml, Spec.elementWith, Spec.tableTag]⟩
  exact (h1.trans (h2.trans h3)).trans ⟨a, b, by simp⟩

/-- **C59 is false in general**: text before a table in the same block is lost. -/
theorem C59_text_kept_fails : ∃ out, parseFresh demoEnv 3 demoCfg t!"Words\n|a|b|" = .ok out ∧ ¬ t!"Words" <:+: out := by
  refine ⟨t!"\t<table>\n\t\t<tr>\n\t\t\t<td>a</td>\n\t\t\t<td>b</td>\n\t\t</tr>\n\t</table>", by kernel_rfl, ?_⟩
  rintro ⟨a, b, e⟩
  have : containsStr t!"Words" t!"\t<table>\n\t\t<tr>\n\t\t\t<td>a</td>\n\t\t\t<td>b</td>\n\t\t</tr>\n\t</table>" = true :=
    containsStr_iff.2 ⟨a, b, by rw [← e]; simp⟩
  revert this
  decide +kernel

/-! ## Example -/

def demoTable : List Spec.Row := [
  ⟨some .head, [⟨true, t!"Name"⟩, ⟨true, t!"Price"⟩]⟩,
  ⟨some .body, [⟨false, t!"apple"⟩, ⟨false, t!"$2.50"⟩]⟩,
  ⟨none, [⟨false, t!"pear"⟩, ⟨false, []⟩]⟩]

def demoTb : List (Spec.TbBlock × Nat) := [(.other demoFn[0].1, 0), (.table demoTable, 1), (.other demoFn[3].1, 0)]

theorem demoTb_ok : ∀ d ∈ demoTb, d.1.Ok demoUni.isLu demoUni.isNd false demoCfg.restricted := by
  intro d hd
  simp only [demoTb, List.mem_cons, List.not_mem_nil, or_false] at hd
  rcases hd with rfl | rfl | rfl
  · exact demoFn_ok demoFn[0] (by simp [demoFn])
  · refine ⟨rfl, by decide, ?_⟩
    intro r hr
    simp only [demoTable, List.mem_cons, List.not_mem_nil, or_false] at hr
    rcases hr with rfl | rfl | rfl <;> refine ⟨by simp, ?_⟩ <;> intro c hc <;> simp only [List.mem_cons, List.not_mem_nil, or_false] at hc <;>
      rcases hc with rfl | rfl <;> exact demo_cell (by decide +kernel) (by decide)
  · exact demoFn_ok demoFn[3] (by simp [demoFn])

example : parseFresh demoEnv 3 demoCfg
    t!"Some words[2] and more[1].\nAgain[2]\n\n|^.\n|_. Name|_. Price|\n|-.\n|apple|$2.50|\n|pear||\n\n\nfn1^. The first." =
    .ok t!"<p>Some words<sup class=\"footnote\" id=\"fnrevabc-1\"><a href=\"#fnabc-1\">2</a></sup> and more<sup class=\"footnote\" id=\"fnrevabc-2\"><a href=\"#fnabc-2\">1</a></sup>.<br>\nAgain<sup class=\"footnote\"><a href=\"#fnabc-1\">2</a></sup></p>\n\n\t<table>\n\t<thead>\n\t\t<tr>\n\t\t\t<th>Name</th>\n\t\t\t<th>Price</th>\n\t\t</tr>\n\t</thead>\n\t<tbody>\n\t\t<tr>\n\t\t\t<td>apple</td>\n\t\t\t<td>$2.50</td>\n\t\t</tr>\n\t\t<tr>\n\t\t\t<td>pear</td>\n\t\t\t<td></td>\n\t\t</tr>\n\t</tbody>\n\t</table>\n\n\n<p class=\"footnote\" id=\"fnabc-2\"><sup><a href=\"#fnrevabc-2\">1</a></sup> The first.</p>" := by
  have := C57_tables demoEnv UniOk.demo 3 (by decide) demoCfg t!"abc" plainBase_demo rfl rfl rfl rfl (by decide)
    _ demo_lowers (fun _ h => h) demoTb (by decide) demoTb_ok (by decide +kernel) (by simp [demoTb, demoFn, Spec.TbBlock.Resolved, Spec.FnBlock.Resolved]) (by decide +kernel) (by decide)
  refine Eq.trans (Eq.trans ?_ this) ?_ <;> exact congrArg _ (by decide +kernel)

example : ∃ out, parseFresh demoEnv 3 demoCfg (Spec.tbSource demoTb) = .ok out ∧ Spec.InOrder (demoTable.map Spec.Row.html) out :=
  C58_row_order_partial demoEnv UniOk.demo 3 (by decide) demoCfg t!"abc" plainBase_demo rfl rfl rfl rfl (by decide)
    _ demo_lowers (fun _ h => h) demoTb demoTb_ok (by decide +kernel) (by simp [demoTb, demoFn, Spec.TbBlock.Resolved, Spec.FnBlock.Resolved]) (by decide +kernel) (by decide)
    demoTable 1 (by simp [demoTb]) (.inr ⟨_, _, rfl, by simp⟩)

end Rustextile
