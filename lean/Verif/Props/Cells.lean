import Verif.CellDoc
import Verif.Props.Endnotes

/-!
# Tables with attributes: C69, C70, C71
-/

namespace Rustextile

open Prog

/-- **C69.** A document of tables with attributes, captions, sections and spanning cells, and of the blocks of
`C63_images`, in any order. -/
theorem C69_table_attributes (E : Env) (hU : UniOk E.U) (fuel : Nat) (hf : 3 ≤ fuel) (cfg : Cfg) (base : Str)
    (hb : Spec.PlainBase base) (huid : cfg.uid = t!"textileRef:" ++ base ++ t!":") (hp : cfg.linkPrefix = base ++ t!"-")
    (hz : cfg.getSizes = false) (hno : cfg.noimage = false)
    (hbt : cfg.blockTags = true) (hsan : cfg.sanitizer = none) (hdep : 1 ≤ cfg.maxSpanDepth)
    (ok : Char → Prop) (hL : Lowers E.U ok) (ha : ∀ c, c.toNat < 128 → ok c)
    (ds : List (Spec.TtBlock × Nat)) (hne : ds ≠ []) (hok : ∀ d ∈ ds, d.1.Ok E.U.isLu E.U.isNd cfg.lite cfg.restricted)
    (hc : ∀ d ∈ ds, ∀ c ∈ d.1.chars, ok c)
    (hres : ∀ d ∈ ds, d.1.Resolved (Spec.Resolves E.urlParse E.urlJoin cfg.restricted) (Spec.Reads E.urlParse E.urlJoin) cfg.rel)
    (htok : ¬ cfg.uid <:+: Spec.ttSource ds)
    (hn : Spec.ttMarks ds < 2 ^ 31) :
    parseFresh E fuel cfg (Spec.ttSource ds) =
      .ok (Spec.ttDocHtml (if cfg.html5 then t!"<br>" else t!"<br />") cfg.restricted (cfg.alignClass.getD cfg.html5) base ds) :=
  parse_ttables (⟨hU, hf, hb, huid⟩ : DocCtx ⟨E, cfg, fuel⟩ base) hp hz hno hbt hsan hdep ha hL hne hok hc hres htok (by omega)

/-! ## Cells -/

theorem ttHtml_mem (br base : Str) (restricted k : Bool) {b : Spec.TtBlock} {n : Nat} : ∀ {ds : List (Spec.TtBlock × Nat)} {N : Spec.Numbers} {M : Spec.Notes},
    (b, n) ∈ ds → ∃ N' M', (b.html br restricted k base N' M', n) ∈ Spec.ttHtml br restricted k base N M ds
  | [], _, _, h => by cases h
  | d :: ds, N, M, h => by
    rcases List.mem_cons.1 h with rfl | h
    · exact ⟨N, M, by simp [Spec.ttHtml]⟩
    · obtain ⟨N', M', h'⟩ := ttHtml_mem br base restricted k (ds := ds) (N := d.1.numbers N restricted) (M := d.1.notes M restricted) h
      exact ⟨N', M', by simp [Spec.ttHtml, h']⟩

theorem tsections_flat : ∀ rs : List Spec.TRow, (Spec.tsections rs).1 ++ (Spec.tsections rs).2.flatMap (·.2) = rs
  | [] => rfl
  | r :: rs => by
    have := tsections_flat rs
    unfold Spec.tsections
    cases r.sect <;> simp [this]

theorem element_within (tag A v : Str) : v <:+: Spec.elementWith tag A v := ⟨'<' :: (tag ++ (A ++ ['>'])), '<' :: '/' :: (tag ++ ['>']), by simp [Spec.elementWith]⟩

theorem right_infix {a b : Str} : b <:+: a ++ b := ⟨a, [], by simp⟩
theorem left_infix {a b : Str} : a <:+: a ++ b := ⟨[], b, by simp⟩

theorem row_within {b : Bool} {t : Spec.TTable} {r : Spec.TRow} (hr : r ∈ t.rows) : r.html b <:+: t.html b := by
  have hf := tsections_flat t.rows
  unfold Spec.TTable.html
  refine List.IsInfix.trans ?_ (List.IsInfix.trans (element_within Spec.tableTag (t.atts b) _) (right_infix (a := ['\t'])))
  refine List.IsInfix.trans ?_ right_infix
  rw [← hf] at hr
  rcases List.mem_append.1 hr with hr | hr
  · exact ((infix_flat hr).trans left_infix).trans right_infix
  · obtain ⟨s, hs, hr⟩ := List.mem_flatMap.1 hr
    refine List.IsInfix.trans ?_ ((infix_flat hs).trans left_infix)
    unfold Spec.tsectionHtml
    exact (((infix_flat hr).trans left_infix).trans (element_within _ _ _)).trans right_infix

theorem tcell_within {b : Bool} {t : Spec.TTable} {r : Spec.TRow} (hr : r ∈ t.rows) {c : Spec.TCell} (hc : c ∈ r.cells) : c.html b <:+: t.html b := by
  refine List.IsInfix.trans ?_ (row_within hr)
  unfold Spec.TRow.html
  exact (((infix_flat hc).trans left_infix).trans (element_within _ _ _)).trans right_infix

theorem ttable_within (br base : Str) (restricted k : Bool) {ds : List (Spec.TtBlock × Nat)} {t : Spec.TTable} {n : Nat}
    (ht : (.table t, n) ∈ ds) : t.html restricted <:+: Spec.ttDocHtml br restricted k base ds := by
  obtain ⟨N', M', h'⟩ := ttHtml_mem br base restricted k (N := fun _ => 1) (M := ⟨[], 0⟩) ht
  exact glue_infix h'

theorem style_infix {x : Str} {l : List Str} (h : x ∈ l) :
    x <:+: Spec.attr t!"style" (if l = [] then none else some (Spec.join [';', ' '] l ++ [';'])) := by
  rw [if_neg (List.ne_nil_of_mem h)]
  exact (join_infix (s := [';', ' ']) h).trans ⟨t!" style=\"", t!";\"", by simp [Spec.attr]⟩

/-- **C70 (partial).** In the documents of C69, every cell of a table becomes an element with its text, which has the numbers of
columns and rows that were written, the horizontal alignment, the language, outside restricted mode the classes and the identifier, and the vertical
alignment if neither a heading mark nor a number of columns or rows stands before it. -/
theorem C70_cell_attributes_partial (E : Env) (hU : UniOk E.U) (fuel : Nat) (hf : 3 ≤ fuel) (cfg : Cfg) (base : Str)
    (hb : Spec.PlainBase base) (huid : cfg.uid = t!"textileRef:" ++ base ++ t!":") (hp : cfg.linkPrefix = base ++ t!"-")
    (hz : cfg.getSizes = false) (hno : cfg.noimage = false)
    (hbt : cfg.blockTags = true) (hsan : cfg.sanitizer = none) (hdep : 1 ≤ cfg.maxSpanDepth)
    (ok : Char → Prop) (hL : Lowers E.U ok) (ha : ∀ c, c.toNat < 128 → ok c)
    (ds : List (Spec.TtBlock × Nat)) (hok : ∀ d ∈ ds, d.1.Ok E.U.isLu E.U.isNd cfg.lite cfg.restricted)
    (hc : ∀ d ∈ ds, ∀ c ∈ d.1.chars, ok c)
    (hres : ∀ d ∈ ds, d.1.Resolved (Spec.Resolves E.urlParse E.urlJoin cfg.restricted) (Spec.Reads E.urlParse E.urlJoin) cfg.rel)
    (htok : ¬ cfg.uid <:+: Spec.ttSource ds)
    (hn : Spec.ttMarks ds < 2 ^ 31) (t : Spec.TTable) (n : Nat) (ht : (.table t, n) ∈ ds)
    (r : Spec.TRow) (hr : r ∈ t.rows) (c : Spec.TCell) (hcr : c ∈ r.cells) :
    ∃ out atts, parseFresh E fuel cfg (Spec.ttSource ds) = .ok out ∧
      t!"<" ++ (c.tag ++ (atts ++ (t!">" ++ (c.text ++ (t!"</" ++ (c.tag ++ t!">")))))) <:+: out ∧
      (∀ m, c.cols = some m → t!" colspan=\"" ++ (Spec.numeral m ++ t!"\"") <:+: atts) ∧
      (∀ m, c.rows = some m → t!" rowspan=\"" ++ (Spec.numeral m ++ t!"\"") <:+: atts) ∧
      (∀ a, c.look.align = some a → t!"text-align:" ++ a.word <:+: atts) ∧
      (∀ l, c.look.lang = some l → t!" lang=\"" ++ (l ++ t!"\"") <:+: atts) ∧
      (cfg.restricted = false → ∀ p i, c.look.cls = some (p, i) → p ≠ [] → t!" class=\"" ++ (p ++ t!"\"") <:+: atts) ∧
      (cfg.restricted = false → ∀ p i, c.look.cls = some (p, some i) → t!" id=\"" ++ (i ++ t!"\"") <:+: atts) ∧
      (c.heading = false → c.cols = none → c.rows = none → ∀ v, c.look.valign = some v → t!"vertical-align:" ++ v.word <:+: atts) := by
  have hdoc := C69_table_attributes E hU fuel hf cfg base hb huid hp hz hno hbt hsan hdep ok hL ha ds (List.ne_nil_of_mem ht) hok hc hres htok hn
  have hw := ttable_within (if cfg.html5 then t!"<br>" else t!"<br />") base cfg.restricted (cfg.alignClass.getD cfg.html5) ht
  have hcell := (tcell_within (b := cfg.restricted) hr hcr).trans hw
  have step : ∀ {x a b : Str}, x <:+: b → x <:+: a ++ b := fun h => h.trans right_infix
  have here : ∀ {x a b : Str}, x <:+: a → x <:+: a ++ b := fun h => h.trans left_infix
  refine ⟨_, c.look.html cfg.restricted (c.before = []) c.cols c.rows, hdoc, ?_, ?_, ?_, ?_, ?_, ?_, ?_, ?_⟩
  · refine List.IsInfix.trans ⟨t!"\n\t\t\t", [], ?_⟩ hcell
    simp [Spec.TCell.html, Spec.elementWith]
  · intro m hm
    unfold Spec.Look.html
    refine step (here ?_)
    rw [hm]
    exact ⟨[], [], by simp [Spec.attr]⟩
  · intro m hm
    unfold Spec.Look.html
    refine step (step (step (step (here ?_))))
    rw [hm]
    exact ⟨[], [], by simp [Spec.attr]⟩
  · intro a hm
    unfold Spec.Look.html
    refine step (step (step (step (step ?_))))
    exact style_infix (by rw [hm]; exact List.mem_append_right _ (List.mem_singleton.2 rfl))
  · intro l hm
    unfold Spec.Look.html
    refine step (step (step (here ?_)))
    rw [hm]
    exact ⟨[], [], by simp [Spec.attr]⟩
  · intro hres p i hm hp
    unfold Spec.Look.html
    refine here ?_
    have e : c.look.atts.cls = some p := by simp [Spec.Look.atts, Spec.Atts.cls, hm, hp]
    rw [hres, e]
    exact ⟨[], [], by simp [Spec.attr]⟩
  · intro hres p i hm
    unfold Spec.Look.html
    refine step (step (here ?_))
    have e : c.look.atts.id = some i := by simp [Spec.Look.atts, Spec.Atts.id, hm]
    rw [hres, e]
    exact ⟨[], [], by simp [Spec.attr]⟩
  · intro h1 h2 h3 v hm
    unfold Spec.Look.html
    refine step (step (step (step (step ?_))))
    have hb : c.before = [] := by simp [Spec.TCell.before, h1, h2, h3]
    exact style_infix (by rw [hm, hb]; exact List.mem_append_left _ (List.mem_singleton.2 rfl))

/-- **C70 is false in general**: the vertical alignment of a heading cell, or of a cell that spans columns, is lost. -/
theorem C70_vertical_fails : parseFresh demoEnv 3 demoCfg t!"|_^. a|\\2~. b|" =
    .ok t!"\t<table>\n\t\t<tr>\n\t\t\t<th>a</th>\n\t\t\t<td colspan=\"2\">b</td>\n\t\t</tr>\n\t</table>" := by kernel_rfl

/-- **C70 is false in general**: the value of an attribute is taken for text with markup, and a row loses all its attributes
when the alignment does not come first. -/
theorem C70_class_fails : parseFresh demoEnv 3 demoCfg t!"|(x _y_ z). a|\n(y)>. |c|" =
    .ok t!"\t<table>\n\t\t<tr>\n\t\t\t<td class=\"x <em>y</em> z\">a</td>\n\t\t</tr>\n\t\t<tr>\n\t\t\t<td>c</td>\n\t\t</tr>\n\t</table>" := by kernel_rfl

/-- **C71 (partial).** In the documents of C69, the cells of a table come out as elements with their texts, those of the first row too. -/
theorem C71_cells_kept_partial (E : Env) (hU : UniOk E.U) (fuel : Nat) (hf : 3 ≤ fuel) (cfg : Cfg) (base : Str)
    (hb : Spec.PlainBase base) (huid : cfg.uid = t!"textileRef:" ++ base ++ t!":") (hp : cfg.linkPrefix = base ++ t!"-")
    (hz : cfg.getSizes = false) (hno : cfg.noimage = false)
    (hbt : cfg.blockTags = true) (hsan : cfg.sanitizer = none) (hdep : 1 ≤ cfg.maxSpanDepth)
    (ok : Char → Prop) (hL : Lowers E.U ok) (ha : ∀ c, c.toNat < 128 → ok c)
    (ds : List (Spec.TtBlock × Nat)) (hok : ∀ d ∈ ds, d.1.Ok E.U.isLu E.U.isNd cfg.lite cfg.restricted)
    (hc : ∀ d ∈ ds, ∀ c ∈ d.1.chars, ok c)
    (hres : ∀ d ∈ ds, d.1.Resolved (Spec.Resolves E.urlParse E.urlJoin cfg.restricted) (Spec.Reads E.urlParse E.urlJoin) cfg.rel)
    (htok : ¬ cfg.uid <:+: Spec.ttSource ds)
    (hn : Spec.ttMarks ds < 2 ^ 31) (t : Spec.TTable) (n : Nat) (ht : (.table t, n) ∈ ds)
    (r : Spec.TRow) (hr : r ∈ t.rows) :
    ∃ out, parseFresh E fuel cfg (Spec.ttSource ds) = .ok out ∧ Spec.InOrder (r.cells.map (fun c => t!">" ++ (c.text ++ (t!"</" ++ (c.tag ++ t!">"))))) out := by
  have hdoc := C69_table_attributes E hU fuel hf cfg base hb huid hp hz hno hbt hsan hdep ok hL ha ds (List.ne_nil_of_mem ht) hok hc hres htok hn
  have hw := ttable_within (if cfg.html5 then t!"<br>" else t!"<br />") base cfg.restricted (cfg.alignClass.getD cfg.html5) ht
  obtain ⟨a, b, e⟩ := (row_within (b := cfg.restricted) hr).trans hw
  refine ⟨_, hdoc, ?_⟩
  rw [← e, List.append_assoc]
  refine InOrder.within a b ?_
  have hcells : ∀ cs : List Spec.TCell, Spec.InOrder (cs.map (fun c => t!">" ++ (c.text ++ (t!"</" ++ (c.tag ++ t!">"))))) (cs.flatMap (Spec.TCell.html cfg.restricted)) := by
    intro cs
    induction cs with
    | nil => trivial
    | cons c cs ih =>
      rw [List.map_cons, List.flatMap_cons]
      refine ⟨t!"\n\t\t\t<" ++ (c.tag ++ c.look.html cfg.restricted (c.before = []) c.cols c.rows), cs.flatMap (Spec.TCell.html cfg.restricted), ?_, ih⟩
      simp [Spec.TCell.html, Spec.elementWith]
  have := InOrder.within (t!"\n\t\t<tr" ++ (r.look.html cfg.restricted true none none ++ t!">")) t!"\n\t\t</tr>" (hcells r.cells)
  simpa [Spec.TRow.html, Spec.elementWith] using this

/-- **C71 is false in general**: a centred cell at the very start of a table is taken for a caption, with the rest of the row. -/
theorem C71_cells_kept_fails : parseFresh demoEnv 3 demoCfg t!"|=. a|b|\n|c|d|" =
    .ok t!"\t<table>\n\t<caption>a|b</caption>\n\n\t\t<tr>\n\t\t\t<td>c</td>\n\t\t\t<td>d</td>\n\t\t</tr>\n\t</table>" := by kernel_rfl

/-! ## Instances -/

instance (c : Char) : Decidable (Spec.Alnum c) := by unfold Spec.Alnum; infer_instance

def lookB (r : Bool) (k : Spec.Look) : Bool :=
  (match k.cls with
    | none => true
    | some p => (p.1 != [] || p.2.isSome) && p.1.all (fun c => decide (Spec.Alnum c) || c == ' ') &&
        (match p.2 with | none => true | some j => j != [] && j.all (fun c => decide (Spec.Alnum c)))) &&
  (match k.lang with | none => true | some l => l != [] && l.all (fun c => decide (Spec.Alnum c))) &&
  (!r || (match k.align with | none => true | some .center => true | _ => false))

theorem look_of_B {r : Bool} {k : Spec.Look} (h : lookB r k = true) : k.Ok r := by
  obtain ⟨v, al, cl, la⟩ := k
  simp only [lookB, Bool.and_eq_true] at h
  refine ⟨?_, ?_, ?_⟩
  · rintro ⟨p, i⟩ hp
    simp only at hp
    subst hp
    cases i with
    | none => simp at h ⊢; grind
    | some j => simp at h ⊢; grind
  · rintro l hl
    simp only at hl
    subst hl
    simpa using h.1.2
  · rintro rfl
    cases al with
    | none => simp
    | some a => cases a <;> simp_all

theorem label_of_B {t : Str} (h : wordsB demoUni.isLu t = true) (h1 : t.head? ≠ some ' ') (h2 : t.getLast? ≠ some ' ') : Spec.Label demoUni.isLu t :=
  ⟨words_of_B h, h1, h2⟩

def tcellB (r : Bool) (c : Spec.TCell) : Bool :=
  wordsB demoUni.isLu c.text && lookB r c.look && (c.marks != [] || (c.text.head? != some '.' && c.text.head? != some '/'))

theorem tcell_of_B {r : Bool} {c : Spec.TCell} (h : tcellB r c = true) : c.Ok demoUni.isLu r := by
  simp only [tcellB, Bool.and_eq_true] at h
  refine ⟨words_of_B h.1.1, look_of_B h.1.2, ?_⟩
  intro hm x u hx
  have := h.2
  simp [hm, hx] at this
  exact this

def trowB (r : Bool) (w : Spec.TRow) : Bool :=
  (match w.sect with | none => true | some s => lookB r s.2) && lookB r w.look && !w.cells.isEmpty && w.cells.all (tcellB r)

theorem trow_of_B {r : Bool} {w : Spec.TRow} (h : trowB r w = true) : w.Ok demoUni.isLu r := by
  simp only [trowB, Bool.and_eq_true] at h
  refine ⟨?_, look_of_B h.1.1.2, by simpa using h.1.2, fun c hc => tcell_of_B (List.all_eq_true.1 h.2 c hc)⟩
  intro s hs
  have := h.1.1.1
  rw [hs] at this
  exact look_of_B this

/-- A table with attributes everywhere. -/
def demoTTable : Spec.TTable where
  head := some ({ align := some .center, cls := some (t!"big wide", some t!"prices") }, t!"All prices")
  caption := some ({ lang := some t!"en" }, t!"Our prices")
  rows := [
    { cells := [{ text := t!"before" }] },
    { sect := some (.head, { align := some .right, cls := some (t!"top", none) }), look := { valign := some .top, align := some .left },
      cells := [{ heading := true, cols := some 2, look := { align := some .right }, text := t!"Fruit" }, { rows := some 3, text := t!"x" }] },
    { sect := some (.body, {}),
      cells := [{ look := { valign := some .bottom, align := some .justify, cls := some (t!"", some t!"a1"), lang := some t!"de" }, text := t!"Apfel" }, { text := t!"" }] }]

def demoTtDoc : List (Spec.TtBlock × Nat) := [(.table demoTTable, 0), (.other (.other (.para demoSg')), 1),
  (.table { rows := [{ cells := [{ look := { valign := some .middle }, text := t!"end" }] }] }, 0)]

theorem demoTt_ok : ∀ d ∈ demoTtDoc, d.1.Ok demoUni.isLu demoUni.isNd false false := by
  intro d hd
  simp only [demoTtDoc, List.mem_cons, List.not_mem_nil, or_false] at hd
  rcases hd with rfl | rfl | rfl
  · refine ⟨rfl, ?_, ?_, by simp [demoTTable], ?_, by simp [demoTTable]⟩
    · rintro h ⟨⟩
      exact ⟨look_of_B (by decide +kernel), label_of_B (by decide +kernel) (by decide) (by decide)⟩
    · rintro h ⟨⟩
      exact ⟨look_of_B (by decide +kernel), label_of_B (by decide +kernel) (by decide) (by decide), by simp⟩
    · intro r hr
      simp only [demoTTable, List.mem_cons, List.not_mem_nil, or_false] at hr
      rcases hr with rfl | rfl | rfl <;> exact trow_of_B (by decide +kernel)
  · exact ⟨sgText_of_B (by decide +kernel), by simp, noBlockStart_head (by decide), by decide⟩
  · refine ⟨rfl, by simp, by simp, by simp, ?_, fun _ => by decide⟩
    simp only [List.mem_cons, List.not_mem_nil, or_false]
    rintro r rfl
    exact trow_of_B (by decide +kernel)

theorem demoTt_res : ∀ d ∈ demoTtDoc, d.1.Resolved (Spec.Resolves demoEnv.urlParse demoEnv.urlJoin false) (Spec.Reads demoEnv.urlParse demoEnv.urlJoin) none := by
  intro d hd
  simp only [demoTtDoc, List.mem_cons, List.not_mem_nil, or_false] at hd
  rcases hd with rfl | rfl | rfl <;> trivial

/-- Two tables. -/
theorem C69_table_attributes_ex : parseFresh demoEnv 3 demoCfg t!"table=(big wide#prices). All prices\n|=[en]. Our prices\n|before|\n|^>(top).\n^<. |_\\2>. Fruit|/3. x|\n|-.\n|~<>(#a1)[de]. Apfel||\n\nR&D -- it's more\n\n\n|-. end|" =
    .ok t!"\t<table class=\"big wide\" id=\"prices\" style=\"text-align:center;\" summary=\"All prices\">\n\t<caption lang=\"en\">Our prices</caption>\n\n\t<thead class=\"top\" style=\"text-align:right;\">\n\t\t<tr style=\"vertical-align:top; text-align:left;\">\n\t\t\t<th colspan=\"2\" style=\"text-align:right;\">Fruit</th>\n\t\t\t<td rowspan=\"3\">x</td>\n\t\t</tr>\n\t</thead>\n\t<tbody>\n\t\t<tr>\n\t\t\t<td id=\"a1\" lang=\"de\" style=\"vertical-align:bottom; text-align:justify;\">Apfel</td>\n\t\t\t<td></td>\n\t\t</tr>\n\t</tbody>\n\t\t<tr>\n\t\t\t<td>before</td>\n\t\t</tr>\n\t</table>\n\n<p>R&amp;D &#8212; it&#8217;s more</p>\n\n\n\t<table>\n\t\t<tr>\n\t\t\t<td style=\"vertical-align:middle;\">end</td>\n\t\t</tr>\n\t</table>" := by
  have := C69_table_attributes demoEnv UniOk.demo 3 (by decide) demoCfg t!"abc" plainBase_demo rfl rfl rfl rfl rfl rfl (by decide)
    _ demo_lowers (fun _ h => h) demoTtDoc (by decide) demoTt_ok (by decide +kernel) demoTt_res (by decide +kernel) (by decide)
  refine Eq.trans (Eq.trans ?_ this) ?_ <;> exact congrArg _ (by decide +kernel)

/-- The spanning heading there. -/
theorem C70_cell_attributes_ex : ∃ out atts, parseFresh demoEnv 3 demoCfg (Spec.ttSource demoTtDoc) = .ok out ∧
    t!"<th" ++ (atts ++ t!">Fruit</th>") <:+: out ∧ t!" colspan=\"2\"" <:+: atts ∧ t!"text-align:right" <:+: atts := by
  obtain ⟨out, atts, h1, h2, h3, -, h4, -⟩ := C70_cell_attributes_partial demoEnv UniOk.demo 3 (by decide) demoCfg t!"abc" plainBase_demo rfl rfl rfl rfl rfl rfl (by decide)
    _ demo_lowers (fun _ h => h) demoTtDoc demoTt_ok (by decide +kernel) demoTt_res (by decide +kernel) (by decide)
    demoTTable 0 (by simp [demoTtDoc]) _ (List.mem_cons_of_mem _ (List.mem_cons_self ..)) _ (List.mem_cons_self ..)
  exact ⟨out, atts, h1, h2, h3 2 rfl, h4 .right rfl⟩

/-- The last row there. -/
theorem C71_cells_kept_ex : ∃ out, parseFresh demoEnv 3 demoCfg (Spec.ttSource demoTtDoc) = .ok out ∧ Spec.InOrder [t!">Apfel</td>", t!"></td>"] out :=
  C71_cells_kept_partial demoEnv UniOk.demo 3 (by decide) demoCfg t!"abc" plainBase_demo rfl rfl rfl rfl rfl rfl (by decide)
    _ demo_lowers (fun _ h => h) demoTtDoc demoTt_ok (by decide +kernel) demoTt_res (by decide +kernel) (by decide)
    demoTTable 0 (by simp [demoTtDoc]) _ (List.mem_cons_of_mem _ (List.mem_cons_of_mem _ (List.mem_cons_self ..)))

end Rustextile
