import Verif.Weave
import Verif.Auto
import Verif.Starts

/-!
# Footnotes

What `graf` does with a text with references to footnotes.
-/

namespace Rustextile

open Prog

variable {aux0 : Aux}

/-! ## Texts with references -/

def inkA : Alpha := ⟨asciiAlnum ++ t!",./$", true⟩
def gapA : Alpha := ⟨t!" \n", false⟩
def digA : Alpha := ⟨t!"0123456789", false⟩
def oneA (c : Char) : Alpha := ⟨[c], false⟩

theorem oneA_mem (c : Char) : (oneA c).Mem c := .inl (by simp [oneA])

/-- Part of an automaton that reads texts with references: states after ink, after a gap, after
`[`, and after a digit of a label. -/
structure HasFn (M : Auto) (a b d e : Nat) : Prop where
  ink : (inkA, a) ∈ M.step a ∧ (gapA, b) ∈ M.step a ∧ (oneA '[', d) ∈ M.step a ∧ M.final a = true
  gap : (inkA, a) ∈ M.step b ∧ (gapA, b) ∈ M.step b ∧ M.final b = true
  br : (digA, e) ∈ M.step d
  dig : (digA, e) ∈ M.step e ∧ (oneA ']', a) ∈ M.step e

/-- A state from which a text can be read. -/
def FromText (M : Auto) (a b q : Nat) : Prop := (inkA, a) ∈ M.step q ∧ (gapA, b) ∈ M.step q

theorem ink_or_gap {c : Char} (h : linesA.Mem c) : inkA.Mem c ∨ (gapA.Mem c ∧ (c = ' ' ∨ c = '\n')) := by
  rcases h with h | h
  · have : ∀ c ∈ linesA.ascii, c ∈ inkA.ascii ∨ (c ∈ gapA.ascii ∧ (c = ' ' ∨ c = '\n')) := by decide +kernel
    rcases this c h with h | h
    · exact .inl (.inl h)
    · exact .inr ⟨.inl h.1, h.2⟩
  · exact .inl (.inr h)

theorem HasFn.text {M : Auto} {a b d e : Nat} (hM : HasFn M a b d e) {rest : Str} (hr : M.Run a rest) : ∀ {w : Str} {q : Nat},
    FromText M a b q → linesA.Over w → ¬ Spec.EndsInSpace w → (w = [] → q = a) → M.Run q (w ++ rest)
  | [], q, _, _, _, h => by rw [h rfl]; exact hr
  | c :: w, q, hq, hA, hs, _ => by
    have hs' : ¬ Spec.EndsInSpace w := by rintro ⟨u, x, rfl, hx⟩; exact hs ⟨c :: u, x, rfl, hx⟩
    have hA' : linesA.Over w := fun x hx => hA x (by simp [hx])
    rcases ink_or_gap (hA c (by simp)) with h | ⟨h, hc⟩
    · exact ⟨_, hq.1, h, hM.text hr ⟨hM.ink.1, hM.ink.2.1⟩ hA' hs' (fun _ => rfl)⟩
    · refine ⟨_, hq.2, h, hM.text hr ⟨hM.gap.1, hM.gap.2.1⟩ hA' hs' ?_⟩
      rintro rfl
      exact absurd ⟨[], c, rfl, hc⟩ hs

theorem digA_of {c : Char} (h : Spec.isDecimal c = true) : digA.Mem c := by
  left
  have : c.toNat ∈ List.range 128 := by
    simp only [Spec.isDecimal, Bool.and_eq_true, decide_eq_true_eq] at h
    simp; omega
  have key : ∀ n ∈ List.range 128, 48 ≤ n ∧ n ≤ 57 → Char.ofNat n ∈ digA.ascii := by decide +kernel
  simp only [Spec.isDecimal, Bool.and_eq_true, decide_eq_true_eq] at h
  have := key c.toNat this h
  rwa [Char.ofNat_toNat] at this

theorem HasFn.label {M : Auto} {a b d e : Nat} (hM : HasFn M a b d e) {rest : Str} (hr : M.Run a rest) : ∀ {l : Str},
    (∀ c ∈ l, Spec.isDecimal c = true) → M.Run e (l ++ ']' :: rest)
  | [], _ => ⟨_, hM.dig.2, oneA_mem _, hr⟩
  | c :: l, h => ⟨_, hM.dig.1, digA_of (h c (by simp)), hM.label hr (fun x hx => h x (by simp [hx]))⟩

theorem HasFn.newlines {M : Auto} {a b d e : Nat} (hM : HasFn M a b d e) : ∀ {n : Str} {q : Nat}, (∀ c ∈ n, c = '\n') → q = a ∨ q = b →
    M.Run q n
  | [], q, _, h => by
    rcases h with rfl | rfl
    · exact hM.ink.2.2.2
    · exact hM.gap.2.2
  | c :: n, q, hn, h => by
    have hc := hn c (by simp)
    subst hc
    refine ⟨(gapA, b), ?_, .inl (by simp [gapA]), hM.newlines (fun x hx => hn x (by simp [hx])) (.inr rfl)⟩
    rcases h with rfl | rfl
    · exact hM.ink.2.1
    · exact hM.gap.2.1

def refsSource (rs : List (Str × Str)) : Str := rs.flatMap (fun r => '[' :: (r.1 ++ ']' :: r.2))

theorem refsSource_cons (r : Str × Str) (rs : List (Str × Str)) :
    refsSource (r :: rs) = '[' :: (r.1 ++ ']' :: (r.2 ++ refsSource rs)) := by simp [refsSource]

/-- What is known of the parts. -/
structure FnOk (U : Uni) (w : Str) (rs : List (Str × Str)) : Prop where
  lead : Spec.Prose U.isLu w ∧ ¬ Spec.EndsInSpace w
  texts : ∀ r ∈ rs, Spec.Prose U.isLu r.2 ∧ ¬ Spec.EndsInSpace r.2
  labels : ∀ r ∈ rs, r.1 ≠ [] ∧ ∀ c ∈ r.1, Spec.isDecimal c = true

theorem FnOk.tail {U : Uni} {w : Str} {r : Str × Str} {rs : List (Str × Str)} (h : FnOk U w (r :: rs)) : FnOk U r.2 rs :=
  ⟨h.texts r (by simp), fun x hx => h.texts x (by simp [hx]), fun x hx => h.labels x (by simp [hx])⟩

theorem HasFn.run {M : Auto} {a b d e : Nat} (hM : HasFn M a b d e) {U : Uni} {n : Str} (hn : ∀ c ∈ n, c = '\n') :
    ∀ {rs : List (Str × Str)} {w : Str} {q : Nat}, FnOk U w rs → FromText M a b q → (w = [] → q = a) →
      M.Run q (w ++ (refsSource rs ++ n))
  | [], w, q, h, hq, hw => by
    refine hM.text (rest := refsSource [] ++ n) ?_ hq (prose_over h.lead.1) h.lead.2 hw
    exact hM.newlines hn (.inl rfl)
  | r :: rs, w, q, h, hq, hw => by
    refine hM.text ?_ hq (prose_over h.lead.1) h.lead.2 hw
    rw [refsSource_cons]
    have h1 := hM.run hn h.tail ⟨hM.ink.1, hM.ink.2.1⟩ (fun _ => rfl)
    obtain ⟨h2, h3⟩ := h.labels r (by simp)
    obtain ⟨c, l, hl⟩ := List.exists_cons_of_ne_nil h2
    have h4 := hM.label h1 (l := l) (fun x hx => h3 x (by rw [hl]; simp [hx]))
    refine ⟨_, hM.ink.2.2.1, oneA_mem _, ?_⟩
    rw [hl]
    refine ⟨_, hM.br, digA_of (h3 c (by rw [hl]; simp)), ?_⟩
    simpa using h4

/-- The text of a paragraph. -/
def fnM : Auto := [
  (true, [(inkA, 1), (gapA, 2)]),
  (true, [(inkA, 1), (gapA, 2), (oneA '[', 3)]),
  (true, [(inkA, 1), (gapA, 2)]),
  (false, [(digA, 4)]),
  (false, [(digA, 4), (oneA ']', 1)])]

set_option maxRecDepth 100000 in
theorem fnM_ok : fnM.wf = true ∧ earlyPatterns.all (fnM.avoids ·) = true ∧ fnM.avoids TABLE_RE = true ∧
    (latePatterns.filter (fun r => r != FOOTNOTE_RE)).all (fnM.avoids ·) = true ∧ fnM.avoids NOTEDEF_RE = true ∧ fnM.avoids DIVIDER_RE = true := by
  decide +kernel

theorem hasFn_fnM : HasFn fnM 1 2 3 4 := by
  refine ⟨⟨?_, ?_, ?_, rfl⟩, ⟨?_, ?_, rfl⟩, ?_, ?_, ?_⟩ <;> simp [fnM, Auto.step]

/-- What `graf` needs to know of a text with references before they are replaced. -/
structure FnQuiet (U : Uni) (t : Str) : Prop where
  early : ∀ r ∈ earlyPatterns, r.search U [] t = none
  table : TABLE_RE.search U [] (t ++ t!"\n\n") = none
  late : ∀ n, n = [] ∨ n = t!"\n\n" → ∀ r ∈ latePatterns, r ≠ FOOTNOTE_RE → r.search U [] (t ++ n) = none
  notedef : NOTEDEF_RE.search U [] t = none
  divider : DIVIDER_RE.search U [] t = none

theorem fnQuiet_of {U : Uni} (hU : UniOk U) {M : Auto} (hM : M.wf = true ∧ earlyPatterns.all (M.avoids ·) = true ∧ M.avoids TABLE_RE = true ∧
    (latePatterns.filter (fun r => r != FOOTNOTE_RE)).all (M.avoids ·) = true ∧ M.avoids NOTEDEF_RE = true ∧ M.avoids DIVIDER_RE = true)
    (hl : 0 < M.length) {t : Str} (h : ∀ n, (∀ c ∈ n, c = '\n') → M.Run 0 (t ++ n)) : FnQuiet U t := by
  obtain ⟨h1, h2, h3, h4, h5, h6⟩ := hM
  have h0 := h [] (by simp)
  rw [List.append_nil] at h0
  refine ⟨?_, ?_, ?_, ?_, ?_⟩
  · intro r hr
    exact Auto.search_none hU h1 (List.all_eq_true.1 h2 r hr) hl h0
  · exact Auto.search_none hU h1 h3 hl (h _ (by simp))
  · intro n hn r hr hne
    refine Auto.search_none hU h1 (List.all_eq_true.1 h4 r (List.mem_filter.2 ⟨hr, by simpa using hne⟩)) hl (h n ?_)
    rcases hn with rfl | rfl <;> simp
  · exact Auto.search_none hU h1 h5 hl h0
  · exact Auto.search_none hU h1 h6 hl h0

theorem fnQuiet {U : Uni} (hU : UniOk U) {w : Str} {rs : List (Str × Str)} (h : FnOk U w rs) (hw : w ≠ []) :
    FnQuiet U (w ++ refsSource rs) := by
  refine fnQuiet_of hU fnM_ok (by decide) ?_
  intro n hn
  rw [List.append_assoc]
  exact hasFn_fnM.run hn h (by constructor <;> simp [fnM, Auto.step]) (fun e => absurd e hw)

/-! ## Replacing the references -/

theorem FOOTNOTE_shape : FOOTNOTE_RE = .seq (.behind false 1 (.set false [.ncls .space])) (.seq (.set false [.chr '['])
    (.seq (.grp 1 (.seq (.set false [.cls .N]) (.star true (.set false [.cls .N]))))
    (.seq (.grp 2 (.alt (.set false [.chr '!']) .eps)) (.seq (.set false [.chr ']'])
    (.grp 3 (.alt (.set false [.cls .space]) .eps)))))) := by kernel_rfl

theorem FOOTNOTE_nonnull : FOOTNOTE_RE.nonnull = true := by kernel_rfl

theorem fn_miss {U : Uni} {pre rest : Str} {c : Char} (h : c ≠ '[') : FOOTNOTE_RE.matchAt U ⟨pre, c :: rest⟩ = none := by
  rw [Re.matchAt_none]
  cases hl : FOOTNOTE_RE.all U ⟨pre, c :: rest⟩ [] with
  | nil => rfl
  | cons p l =>
    exfalso
    obtain ⟨w, hw, lw⟩ := Re.all_lang FOOTNOTE_RE ⟨pre, c :: rest⟩ [] p (by rw [hl]; simp)
    rw [FOOTNOTE_shape] at lw
    obtain ⟨_, _, rfl, h1, _, v, rfl, h2, -⟩ := lw
    rw [show _ = [] from h1, show _ = ['['] from lang_chr.1 h2] at hw
    have := hw.1
    simp at this
    exact h this.1

theorem fn_skips {U : Uni} {w : Str} (h : '[' ∉ w) (pre rest : Str) : Skips U FOOTNOTE_RE pre w rest := by
  intro u x v e
  exact fn_miss (by rintro rfl; exact h (by rw [e]; simp))

theorem digit_eval {U : Uni} (hU : UniOk U) {c : Char} (h : Spec.isDecimal c = true) : evalSet U false [.cls .N] c = true := by
  simp only [Spec.isDecimal, Bool.and_eq_true, decide_eq_true_eq] at h
  have h1 := hU.num c (by omega)
  simp [evalSet, Item.eval, UC.eval, h1, isDig, h]

theorem fn_hit {U : Uni} (hU : UniOk U) {pre l sp rest : Str} {c : Char} (hc : isWs c = false) (hl : l ≠ []) (hd : ∀ c ∈ l, Spec.isDecimal c = true)
    (hsp : (sp = [] ∧ ∀ x v, rest = x :: v → isWs x = false) ∨ ∃ x, sp = [x] ∧ isWs x = true) :
    FOOTNOTE_RE.matchAt U ⟨c :: pre, ('[' :: (l ++ ']' :: sp)) ++ rest⟩ =
      some (⟨('[' :: (l ++ ']' :: sp)).reverse ++ (c :: pre), rest⟩, [(3, sp), (2, []), (1, l)]) := by
  rw [FOOTNOTE_shape]
  apply Heads.matchAt
  have e : '[' :: (l ++ ']' :: sp) = [] ++ (['['] ++ (l ++ ([] ++ ([']'] ++ sp)))) := by simp
  rw [e]
  refine Heads.seq (s1 := []) ?_ (Heads.seq .chr (Heads.seq (s1 := [(1, l)]) (Heads.grp (s' := []) (Heads.plus hl ?_ ?_))
    (Heads.seq (s1 := [(2, []), (1, l)]) (Heads.grp (s' := [(1, l)]) (Heads.right ?_ .eps)) (Heads.seq .chr (Heads.grp (s' := [(2, []), (1, l)]) ?_)))))
  · refine ⟨[], ?_⟩
    have : evalSet U false [.ncls .space] c = true := by simp [evalSet, Item.eval, UC.eval, hc]
    simp [Re.all, Cur.back, this]
  · intro x hx; exact digit_eval hU (hd x hx)
  · intro x hx
    simp at hx; subst hx
    have h1 := hU.num ']' (by decide)
    simp [evalSet, Item.eval, UC.eval, h1, isDig]
  · simp [Re.all, evalSet, Item.eval_chr]
  · rcases hsp with ⟨rfl, h⟩ | ⟨x, rfl, h⟩
    · refine Heads.right ?_ .eps
      cases rest with
      | nil => rfl
      | cons x v => simp [Re.all, evalSet, Item.eval, UC.eval, h x v rfl]
    · exact Heads.left (.set (by simp [evalSet, Item.eval, UC.eval, h]))

/-- One reference. -/
theorem fn_step {C : Ctx} (hU : UniOk C.U) {pre l X o out : Str} {c : Char} {σ σ1 σ2 : PState} (hc : isWs c = false) (hl : l ≠ [])
    (hd : ∀ c ∈ l, Spec.isDecimal c = true)
    (hf : ∀ gap w sp, Runs C (fFootnote C ⟨gap, w, [(3, sp), (2, []), (1, l)]⟩) (o ++ sp) σ σ1)
    (h : ScanP C FOOTNOTE_RE (fFootnote C) (('[' :: (l ++ t!"]")).reverse ++ (c :: pre)) X σ1 out σ2) :
    ScanP C FOOTNOTE_RE (fFootnote C) (c :: pre) ('[' :: (l ++ ']' :: X)) σ (o ++ out) σ2 := by
  by_cases hX : ∃ x v, X = x :: v ∧ isWs x = true
  · obtain ⟨x, v, rfl, hx⟩ := hX
    have hxb : x ≠ '[' := by rintro rfl; revert hx; decide
    generalize hY : x :: v = Y at h
    cases h with
    | nil => cases hY
    | hit hm hw _ _ =>
      rw [← hY, fn_miss hxb] at hm; cases hm
    | miss hm h =>
      cases hY
      have := ScanP.hit (w := '[' :: (l ++ ']' :: [x])) (rest := v) (fn_hit hU hc hl hd (.inr ⟨x, rfl, hx⟩)) (by simp)
        (fun gap => hf gap _ [x]) (by simpa using h)
      simpa using this
  · have := ScanP.hit (w := '[' :: (l ++ ']' :: [])) (rest := X) (fn_hit (U := C.U) hU hc hl hd (.inl ⟨rfl, fun x v e => by
      cases hx : isWs x with
      | false => rfl
      | true => exact absurd ⟨x, v, e, hx⟩ hX⟩)) (by simp) (fun gap => hf gap _ []) h
    simpa using this

/-- The footnotes in the state of the parser; `aux0` is the part of the state that is not concerned. -/
structure FnState (base : Str) (aux0 : Aux) (N : Spec.Notes) (σ : PState) : Prop where
  look : ∀ l, alLookup l σ.footnotes = (N.number l).map (Spec.noteId base)
  link : σ.linkIndex = N.last
  rest : { σ.aux with olStarts := [] } = aux0

theorem FnState.keeps {base : Str} {N : Spec.Notes} {σ σ' : PState} (h : FnState base aux0 N σ) (hk : Keeps σ σ') : FnState base aux0 N σ' :=
  ⟨by rw [hk.foots]; exact h.look, by rw [hk.links]; exact h.link, by rw [hk.rest]; exact h.rest⟩

/-- The number of a reference. -/
def refNum (N : Spec.Notes) (l : Str) : Nat := (N.number l).getD (N.last + 1)

/-- The attributes of a reference. -/
def supAtts (base : Str) (N : Spec.Notes) (l : Str) : Str :=
  Spec.attr Spec.classAttr (some Spec.footnoteWord) ++
    (match N.number l with
    | some _ => []
    | none => Spec.attr Spec.idAttr (some (Spec.fnrevName base (N.last + 1))))

def hrefAtts (base : Str) (N : Spec.Notes) (l : Str) : Str := Spec.attr Spec.hrefAttr (some ('#' :: Spec.fnName base (refNum N l)))

theorem refHtml_eq (base : Str) (N : Spec.Notes) (l : Str) : Spec.refHtml base N l =
    openTagA t!"sup" (supAtts base N l) ++ (openTagA t!"a" (hrefAtts base N l) ++ (l ++ (closeTag t!"a" ++ closeTag t!"sup"))) := by
  unfold Spec.refHtml supAtts hrefAtts refNum
  cases h : N.number l <;>
    simp [Spec.elementWith, openTagA, closeTag, Spec.supTag]

theorem runs_incLink {C : Ctx} (σ : PState) : Runs C incLinkP (σ.linkIndex + 1) σ { σ with linkIndex := σ.linkIndex + 1 } := by
  intro w hw e; subst e; exact ⟨w.incLink.2, rfl, rfl, hw⟩

theorem runs_setFootnote {C : Ctx} (l i : Str) (σ : PState) :
    Runs C (setFootnoteP l i) () σ { σ with footnotes := imInsert l i σ.footnotes } := by
  intro w hw e; subst e; exact ⟨w.setFootnote l i, rfl, rfl, hw⟩

theorem noteId_chars {base : Str} (hb : Spec.PlainBase base) {k : Nat} : ∀ c ∈ Spec.noteId base k, c ∈ asciiAlnum ++ t!"-" := by
  intro c hc
  simp only [Spec.noteId, List.mem_append, List.mem_cons] at hc
  rcases hc with hc | rfl | hc
  · have := hb.chars c hc
    have h1 : ∀ n < 128, ((65 ≤ n ∧ n ≤ 90) ∨ (97 ≤ n ∧ n ≤ 122) ∨ (48 ≤ n ∧ n ≤ 57)) → Char.ofNat n ∈ asciiAlnum ++ t!"-" := by decide +kernel
    have := h1 c.toNat (by omega) this
    rwa [Char.ofNat_toNat] at this
  · decide
  · exact (by decide +kernel : ∀ c ∈ t!"0123456789", c ∈ asciiAlnum ++ t!"-") c (numeral_mem hc)

theorem number_refer_self (N : Spec.Notes) (l : Str) : (N.refer l).number l = some (refNum N l) := by
  unfold Spec.Notes.refer refNum
  cases h : N.number l with
  | some k => simp [h]
  | none => simp [Spec.Notes.number]

theorem number_refer_ne (N : Spec.Notes) {l m : Str} (h : m ≠ l) : (N.refer l).number m = N.number m := by
  unfold Spec.Notes.refer
  cases N.number l with
  | some k => rfl
  | none =>
    have : (l == m) = false := by simpa using fun e => h e.symm
    simp [Spec.Notes.number, List.find?_cons, this]

theorem tag_alnum {U : Uni} (hU : UniOk U) {tag : Str} (h : ∀ c ∈ tag, c ∈ asciiAlnum) : tag.all U.isAlnum = true := by
  rw [List.all_eq_true]
  intro c hc
  have : ∀ c ∈ asciiAlnum, c.toNat < 128 ∧ (isUp c || isLow c || isDig c) = true := by decide +kernel
  rw [hU.alnum c (this c (h c hc)).1, (this c (h c hc)).2]

theorem genTag_eq {U : Uni} (hU : UniOk U) {tag content : Str} {atts : List (Str × Str)} (h1 : tag ≠ []) (h : ∀ c ∈ tag, c ∈ asciiAlnum) :
    generateTag U tag (some content) atts = openTagA tag (joinAttrs atts) ++ (content ++ closeTag tag) := by
  unfold generateTag
  rw [if_neg (by simpa using h1), tag_alnum hU h]
  simp [openTagA, closeTag]

/-- Plain values of attributes. -/
theorem attrText_name {n v : Str} (h : ∀ c ∈ v, c ∈ asciiAlnum ++ t!"-#") : attrText (n, v) = Spec.attr n (some v) := by
  unfold attrText
  rw [quoteattr_plain (fun c hc => (by decide +kernel : ∀ c ∈ asciiAlnum ++ t!"-#", c ∉ t!"&<>\"'\n\r\t") c (h c hc))]
  simp [Spec.attr]

theorem joinAttrs_eq {as : List (Str × Str)} (h1 : ∀ a ∈ as, a.1.all isValidAttrChar = true) (h2 : ∀ a ∈ as, ∀ c ∈ a.2, c ∈ asciiAlnum ++ t!"-#") :
    joinAttrs as = as.flatMap (fun a => Spec.attr a.1 (some a.2)) := by
  unfold joinAttrs
  rw [List.filter_eq_self.2 h1]
  clear h1
  induction as with
  | nil => rfl
  | cons a as ih =>
    rw [List.flatMap_cons, List.flatMap_cons, attrText_name (h2 a (by simp)), ih (fun x hx => h2 x (by simp [hx]))]

theorem fn_chars {base : Str} (hb : Spec.PlainBase base) (p : Str) (hp : ∀ c ∈ p, c ∈ asciiAlnum ++ t!"-#") (k : Nat) :
    ∀ c ∈ p ++ Spec.noteId base k, c ∈ asciiAlnum ++ t!"-#" := by
  intro c hc
  rcases List.mem_append.1 hc with hc | hc
  · exact hp c hc
  · exact (by decide +kernel : ∀ c ∈ asciiAlnum ++ t!"-", c ∈ asciiAlnum ++ t!"-#") c (noteId_chars hb c hc)

theorem linkId {C : Ctx} {base : Str} (hp : C.cfg.linkPrefix = base ++ t!"-") (n : Nat) : C.cfg.linkPrefix ++ natStr n = Spec.noteId base n := by
  rw [hp, Spec.noteId, natStr_numeral]; simp

theorem fFootnote_runs {C : Ctx} {base : Str} (hU : UniOk C.U) (hb : Spec.PlainBase base) (hp : C.cfg.linkPrefix = base ++ t!"-")
    {N : Spec.Notes} {σ : PState} (hσ : FnState base aux0 N σ) {l : Str} :
    ∃ σ1, (∀ gap w sp, Runs C (fFootnote C ⟨gap, w, [(3, sp), (2, []), (1, l)]⟩) (Spec.refHtml base N l ++ sp) σ σ1) ∧
      FnState base aux0 (N.refer l) σ1 ∧ Grows C.cfg.uid σ σ1 ∧ σ1.refIndex = σ.refIndex ∧ σ1.aux = σ.aux := by
  have hsup : ∀ content atts, generateTag C.U t!"sup" (some content) atts = openTagA t!"sup" (joinAttrs atts) ++ (content ++ closeTag t!"sup") :=
    fun content atts => genTag_eq hU (by simp) (by decide +kernel)
  have ha : ∀ content atts, generateTag C.U t!"a" (some content) atts = openTagA t!"a" (joinAttrs atts) ++ (content ++ closeTag t!"a") :=
    fun content atts => genTag_eq hU (by simp) (by decide +kernel)
  have hhref : ∀ k, joinAttrs [(t!"href", t!"#fn" ++ Spec.noteId base k)] = Spec.attr Spec.hrefAttr (some ('#' :: Spec.fnName base k)) := by
    intro k
    rw [joinAttrs_eq (by simp; decide) (by
      intro a ha
      rw [List.mem_singleton] at ha; subst ha
      exact fn_chars hb t!"#fn" (by decide +kernel) k)]
    simp [Spec.fnName, Spec.hrefAttr]
  have hgrp : ∀ (gap w sp : Str), (⟨gap, w, [(3, sp), (2, []), (1, l)]⟩ : Mat).grp 1 = l ∧
      (⟨gap, w, [(3, sp), (2, []), (1, l)]⟩ : Mat).grp 2 = [] ∧ (⟨gap, w, [(3, sp), (2, []), (1, l)]⟩ : Mat).grp 3 = sp :=
    fun gap w sp => ⟨rfl, rfl, rfl⟩
  cases hN : N.number l with
  | some k =>
    refine ⟨σ, ?_, ?_, ⟨rfl, Nat.le_refl _, .refl _ _, id, rfl⟩, rfl, rfl⟩
    · intro gap w sp
      obtain ⟨g1, g2, g3⟩ := hgrp gap w sp
      unfold fFootnote
      refine Runs.bind (runs_getSt σ) ?_
      rw [g1, g2, g3]
      simp only [hσ.look l, hN, Option.map_some]
      refine Runs.bind (Runs.pure _ _) ?_
      simp only [ha, hsup, hhref]
      rw [joinAttrs_eq (by simp; decide) (by simp only [List.mem_singleton, forall_eq]; decide +kernel), refHtml_eq]
      simp only [supAtts, hrefAtts, refNum, hN, Option.getD_some]
      rw [if_neg (by simp)]
      have := Runs.pure (C := C) (openTagA t!"sup" (Spec.attr Spec.classAttr (some Spec.footnoteWord) ++ []) ++
        (openTagA t!"a" (Spec.attr Spec.hrefAttr (some ('#' :: Spec.fnName base k))) ++ (l ++ (closeTag t!"a" ++ closeTag t!"sup"))) ++ sp) σ
      simpa [Spec.classAttr, Spec.footnoteWord] using this
    · have : N.refer l = N := by unfold Spec.Notes.refer; rw [hN]
      rw [this]; exact hσ
  | none =>
    refine ⟨{ σ with linkIndex := σ.linkIndex + 1, footnotes := imInsert l (C.cfg.linkPrefix ++ natStr (σ.linkIndex + 1)) σ.footnotes }, ?_, ?_,
      ⟨rfl, Nat.le_refl _, fun _ _ => ⟨rfl, rfl⟩, fun h => h, rfl⟩, rfl, rfl⟩
    · intro gap w sp
      obtain ⟨g1, g2, g3⟩ := hgrp gap w sp
      unfold fFootnote
      refine Runs.bind (runs_getSt σ) ?_
      rw [g1, g2, g3]
      simp only [hσ.look l, hN, Option.map_none]
      refine Runs.bind (Runs.bind (runs_incLink σ) (Runs.bind (runs_setFootnote _ _ _) (Runs.pure _ _))) ?_
      simp only [ha, hsup, linkId hp, hhref]
      rw [joinAttrs_eq (by simp; decide) (by
        intro a ha
        rcases List.mem_cons.1 ha with rfl | ha
        · decide +kernel
        · rw [List.mem_singleton] at ha; subst ha
          exact fn_chars hb t!"fnrev" (by decide +kernel) _), refHtml_eq]
      simp only [supAtts, hrefAtts, refNum, hN, Option.getD_none, hσ.link]
      rw [if_neg (by simp)]
      have := Runs.pure (C := C) (openTagA t!"sup" (Spec.attr Spec.classAttr (some Spec.footnoteWord) ++ Spec.attr Spec.idAttr (some (Spec.fnrevName base (N.last + 1)))) ++
        (openTagA t!"a" (Spec.attr Spec.hrefAttr (some ('#' :: Spec.fnName base (N.last + 1)))) ++ (l ++ (closeTag t!"a" ++ closeTag t!"sup"))) ++ sp)
        { σ with linkIndex := N.last + 1, footnotes := imInsert l (Spec.noteId base (N.last + 1)) σ.footnotes }
      simpa [Spec.classAttr, Spec.footnoteWord, Spec.idAttr, Spec.fnrevName] using this
    · constructor
      · intro m
        simp only
        rw [alLookup_imInsert, linkId hp, hσ.link]
        by_cases hm : m = l
        · subst hm
          rw [if_pos rfl, number_refer_self]
          simp [refNum, hN]
        · rw [if_neg hm, number_refer_ne N hm, hσ.look m]
      · simp only [hσ.link]
        unfold Spec.Notes.refer
        rw [hN]
      · exact hσ.rest

/-! ## The text after the replacement -/

/-- The tags of a reference and the texts after them. -/
def refPairs (base : Str) (N : Spec.Notes) (r : Str × Str) : List (Str × Str) :=
  [(openTagA t!"sup" (supAtts base N r.1), []), (openTagA t!"a" (hrefAtts base N r.1), r.1), (closeTag t!"a", []), (closeTag t!"sup", r.2)]

def fnPairs (base : Str) : Spec.Notes → List (Str × Str) → List (Str × Str)
  | _, [] => []
  | N, r :: rs => refPairs base N r ++ fnPairs base (N.refer r.1) rs

theorem fnPairs_cons (base : Str) (N : Spec.Notes) (w : Str) (r : Str × Str) (rs : List (Str × Str)) :
    weave w (fnPairs base N (r :: rs)) = w ++ (Spec.refHtml base N r.1 ++ weave r.2 (fnPairs base (N.refer r.1) rs)) := by
  rw [refHtml_eq]
  simp [fnPairs, refPairs, weave]

def fnNotes (N : Spec.Notes) (rs : List (Str × Str)) : Spec.Notes := rs.foldl (fun N r => N.refer r.1) N

theorem last_nows {w : Str} (hA : linesA.Over w) (hw : w ≠ []) (h : ¬ Spec.EndsInSpace w) : ∃ c u, w.reverse = c :: u ∧ isWs c = false := by
  rcases List.eq_nil_or_concat w with rfl | ⟨u, c, rfl⟩
  · exact absurd rfl hw
  · refine ⟨c, u.reverse, by simp, ?_⟩
    rw [List.concat_eq_append] at h hA
    have hc := hA c (by simp)
    rcases hc with hc | hc
    · have : ∀ c ∈ linesA.ascii, isWs c = false ∨ c = ' ' ∨ c = '\n' := by decide +kernel
      rcases this c hc with h1 | h1
      · exact h1
      · exact absurd ⟨u, c, rfl, h1⟩ h
    · exact hc.2.2.1

theorem fn_scan {C : Ctx} {base : Str} (hU : UniOk C.U) (hb : Spec.PlainBase base) (hp : C.cfg.linkPrefix = base ++ t!"-") {n : Str}
    (hn : ∀ c ∈ n, c = '\n') : ∀ {rs : List (Str × Str)} {w pre : Str} {N : Spec.Notes} {σ : PState}, FnOk C.U w rs → FnState base aux0 N σ →
    (w = [] → ∃ c p, pre = c :: p ∧ isWs c = false) →
    ∃ σ', ScanP C FOOTNOTE_RE (fFootnote C) pre (w ++ (refsSource rs ++ n)) σ (weave w (fnPairs base N rs) ++ n) σ' ∧
      FnState base aux0 (fnNotes N rs) σ' ∧ Grows C.cfg.uid σ σ' ∧ σ'.refIndex = σ.refIndex ∧ σ'.aux = σ.aux
  | [], w, pre, N, σ, h, hσ, _ => by
    refine ⟨σ, ?_, hσ, ⟨rfl, Nat.le_refl _, .refl _ _, id, rfl⟩, rfl, rfl⟩
    have h1 : '[' ∉ w := prose_nochar h.lead.1 (by decide) (by decide)
    have h2 : '[' ∉ n := fun hm => by have := hn _ hm; revert this; decide
    have h3 := ScanP.of_skips (C := C) (f := fFootnote C) (σ := σ) (σ' := σ) (out := []) (fn_skips (U := C.U) (w := w ++ n) (by simp [h1, h2]) pre []) .nil
    simpa [fnPairs, weave_nil, refsSource] using h3
  | r :: rs, w, pre, N, σ, h, hσ, hpre => by
    have h1 : '[' ∉ w := prose_nochar h.lead.1 (by decide) (by decide)
    obtain ⟨h2, h3⟩ := h.labels r (by simp)
    obtain ⟨σ1, g1, g2, g3, g4, g5⟩ := fFootnote_runs (C := C) hU hb hp hσ (l := r.1)
    obtain ⟨c, p, hc, hcw⟩ : ∃ c p, w.reverse ++ pre = c :: p ∧ isWs c = false := by
      by_cases hw : w = []
      · subst hw; simpa using hpre rfl
      · obtain ⟨c, u, e, h⟩ := last_nows (prose_over h.lead.1) hw h.lead.2
        exact ⟨c, u ++ pre, by rw [e]; rfl, h⟩
    obtain ⟨σ2, k1, k2, k3, k4, k5⟩ := fn_scan hU hb hp hn (pre := ('[' :: (r.1 ++ t!"]")).reverse ++ (c :: p)) h.tail g2 (fun _ => by
      refine ⟨']', r.1.reverse ++ '[' :: c :: p, by simp, by decide⟩)
    refine ⟨σ2, ?_, k2, g3.trans k3, k4.trans g4, k5.trans g5⟩
    rw [refsSource_cons, fnPairs_cons]
    have := fn_step hU hcw h2 h3 g1 k1
    rw [← hc] at this
    have := ScanP.of_skips (fn_skips h1 pre _) this
    simpa using this

/-! ## `graf` -/

/-- What can be said of the parts of a text with tags. -/
structure WovenOk (C : Ctx) (w : Str) (ps : List (Str × Str)) : Prop where
  lead : Spec.Prose C.U.isLu w ∧ ¬ Spec.EndsInSpace w
  tags : ∀ p ∈ ps, SplitTag C.U p.1 ∧ Inner p.1
  texts : ∀ p ∈ ps, Spec.Prose C.U.isLu p.2 ∧ ¬ Spec.EndsInSpace p.2

theorem nospace_last {w : Str} (h : ¬ Spec.EndsInSpace w) : ∀ c, w.getLast? = some c → c ≠ '\n' := by
  intro c hc e
  rcases List.eq_nil_or_concat w with rfl | ⟨u, x, rfl⟩
  · simp at hc
  · simp at hc; subst hc; exact h ⟨u, x, by simp, .inr e⟩

theorem prose_glyph {C : Ctx} (hU : UniOk C.U) {w : Str} (h : Spec.Prose C.U.isLu w ∧ ¬ Spec.EndsInSpace w) : glyphText C w = w := by
  have hq := quiet_of hU (prose_over h.1) h.1.caps h.1.dots h.1.dims (nospace_last h.2)
  exact glyphText_none hq.glyph hq.lt hq.gt

theorem weave_last {C : Ctx} : ∀ {ps : List (Str × Str)} {w : Str}, WovenOk C w ps → ∀ c, (weave w ps).getLast? = some c → c ≠ '\n'
  | [], w, h, c, hc => nospace_last h.lead.2 c (by rwa [weave_nil] at hc)
  | (g, v) :: ps, w, h, c, hc => by
    rw [weave_cons] at hc
    obtain ⟨⟨x, m, e, -⟩, -⟩ := h.tags (g, v) (by simp)
    have hne : g ++ weave v ps ≠ [] := by rw [show g = _ from e]; simp
    rw [getLast_append_ne hne] at hc
    by_cases hw : weave v ps = []
    · rw [hw, List.append_nil, show g = _ from e] at hc
      have : '<' :: x :: (m ++ ['>']) = ('<' :: x :: m) ++ ['>'] := by simp
      rw [this, List.getLast?_concat] at hc
      cases hc; decide
    · rw [getLast_append_ne hw] at hc
      exact weave_last (w := v) ⟨h.texts (g, v) (by simp), fun p hp => h.tags p (by simp [hp]), fun p hp => h.texts p (by simp [hp])⟩ c hc

theorem glyphs_woven {C : Ctx} (hU : UniOk C.U) {ps : List (Str × Str)} {w n : Str} (h : WovenOk C w ps) (hn : ∀ c ∈ n, c = '\n') :
    glyphs C (weave w ps ++ n) = weave w ps := by
  have hlt : ∀ {v}, Spec.Prose C.U.isLu v → '<' ∉ v := fun h => prose_nochar h (by decide) (by decide)
  rw [glyphs_weave (hlt h.lead.1) (fun p hp => ⟨(h.tags p hp).1, hlt (h.texts p hp).1⟩) (weave_last h) hn, prose_glyph hU h.lead]
  congr 1
  have : ∀ p ∈ ps, (p.1, glyphText C p.2) = p := fun p hp => by rw [prose_glyph hU (h.texts p hp)]
  exact (List.map_congr_left this).trans (List.map_id _)

theorem woven_weave {C : Ctx} {ps : List (Str × Str)} {w : Str} (h : WovenOk C w ps) : Woven (weave w ps) := by
  have hlt : ∀ {v}, Spec.Prose C.U.isLu v → '<' ∉ v := fun h => prose_nochar h (by decide) (by decide)
  unfold weave
  refine Woven.text (hlt h.lead.1) ?_
  have h1 := h.tags
  have h2 := h.texts
  clear h
  induction ps with
  | nil => exact .nil
  | cons p ps ih =>
    rw [List.flatMap_cons, List.append_assoc]
    exact .tag (h1 p (by simp)).2 (.text (hlt (h2 p (by simp)).1) (ih (fun p hp => h1 p (by simp [hp])) (fun p hp => h2 p (by simp [hp]))))

theorem lined_weave {C : Ctx} : ∀ {ps : List (Str × Str)} {w : Str}, WovenOk C w ps → lined (weave w ps) = true
  | [], w, h => by
    rw [weave_nil, ← List.append_nil w]
    exact lined_append (prose_lined (up := C.U.isLu) h.lead.1.chars h.lead.1.lines) rfl (fun e => absurd rfl (nospace_last h.lead.2 _ e))
  | (g, v) :: ps, w, h => by
    rw [weave_cons]
    refine lined_append (prose_lined (up := C.U.isLu) h.lead.1.chars h.lead.1.lines) ?_ (fun e => absurd rfl (nospace_last h.lead.2 _ e))
    exact lined_text (h.tags (g, v) (by simp)).2.nonl (lined_weave ⟨h.texts (g, v) (by simp), fun p hp => h.tags p (by simp [hp]), fun p hp => h.texts p (by simp [hp])⟩)

theorem late_ne : ∀ r ∈ RCLIST_RE :: LISTS_RE :: spanPatterns, r ≠ FOOTNOTE_RE := by decide +kernel

theorem noteref_none {U : Uni} {t : Str} (h : '[' ∉ t) : NOTEREF_RE.search U [] t = none := by
  refine skips_none (by decide +kernel) ?_
  intro u x v e
  rw [Re.matchAt_none]
  cases hl : NOTEREF_RE.all U ⟨u.reverse ++ [], x :: v ++ []⟩ [] with
  | nil => rfl
  | cons p l =>
    exfalso
    obtain ⟨w, hw, lw⟩ := Re.all_lang NOTEREF_RE _ [] p (by rw [hl]; simp)
    rw [show NOTEREF_RE = .seq (.set false [.chr '[']) (match NOTEREF_RE with | .seq _ r => r | r => r) by kernel_rfl] at lw
    obtain ⟨_, y, rfl, h1, -⟩ := lw
    rw [show _ = ['['] from lang_chr.1 h1] at hw
    have := hw.1
    simp at this
    exact h (by rw [e, this.1]; simp)

/-- `graf` on a text with references, after a prefix. -/
theorem graf_fn {C : Ctx} {base : Str} (D : DocCtx C base) (hp : C.cfg.linkPrefix = base ++ t!"-") {pfx w w0 : Str}
    {rs ps : List (Str × Str)} {N : Spec.Notes} {σ : PState} (hq : FnQuiet C.U (pfx ++ (w ++ refsSource rs))) (hpfx : '[' ∉ pfx)
    (hcol : ':' ∉ pfx ++ (w ++ refsSource rs)) (h : FnOk C.U w rs) (hw : w ≠ []) (hσ : FnState base aux0 N σ)
    (ho : pfx ++ weave w (fnPairs base N rs) = weave w0 ps) (hps : WovenOk C w0 ps) (hbr : '[' ∉ weave w0 ps) :
    ∃ σ', Runs C (graf C C.fuel (pfx ++ (w ++ refsSource rs))) (weave w0 ps) σ σ' ∧
      FnState base aux0 (fnNotes N rs) σ' ∧ Grows C.cfg.uid σ σ' ∧ σ'.refIndex = σ.refIndex ∧ σ'.aux = σ.aux := by
  have hf := D.fuel
  obtain ⟨f, hf'⟩ : ∃ f, C.fuel = f + 1 := ⟨C.fuel - 1, by omega⟩
  have hnl : tableEnd C = [] ∨ tableEnd C = t!"\n\n" := by unfold tableEnd; split <;> simp
  obtain ⟨σ', h1, h2, h3, h4, h5⟩ := fn_scan (C := C) D.uni D.plain hp (tableEnd_nl C) (pre := pfx.reverse) h hσ (fun e => absurd e hw)
  refine ⟨σ', ?_, h2, h3, h4, h5⟩
  rw [hf']
  have hlate : ∀ r ∈ latePatterns, r ≠ FOOTNOTE_RE → r.search C.U [] ((pfx ++ (w ++ refsSource rs)) ++ tableEnd C) = none := hq.late _ hnl
  refine graf_split (runs_early (by omega) hq.early ?_ σ) ?_
  · refine containsStr_false_of_mem (c := ':') (by simp [D.colon]) hcol
  unfold grafLate
  refine (runs_table hq.table σ).bind ?_
  refine Runs.bind (a := (pfx ++ (w ++ refsSource rs)) ++ tableEnd C) (σ' := σ) ((Leaves.unless fun _ => Leaves.replaceP (hlate _ (by simp [latePatterns]) (late_ne _ (by simp)))).runs σ) ?_
  refine Runs.bind (a := (pfx ++ (w ++ refsSource rs)) ++ tableEnd C) (σ' := σ) ((Leaves.unless fun _ => Leaves.replaceP (hlate _ (by simp [latePatterns]) (late_ne _ (by simp)))).runs σ) ?_
  refine Runs.bind (a := (pfx ++ (w ++ refsSource rs)) ++ tableEnd C) (σ' := σ) ((Leaves.span (fun r hr => hlate r (by simp [latePatterns, hr]) (late_ne r (by simp [hr])))).runs σ) ?_
  have hsc := ScanP.of_skips (fn_skips (U := C.U) hpfx [] (w ++ (refsSource rs ++ tableEnd C))) (by simpa using h1)
  have hrun := ScanP.runs FOOTNOTE_nonnull (fun m => rfl) hsc
  refine Runs.bind (a := weave w0 ps ++ tableEnd C) (σ' := σ') ?_ ?_
  · unfold footnoteRef
    rw [← ho]
    simpa using hrun
  refine Runs.bind (a := weave w0 ps ++ tableEnd C) (σ' := σ') (Runs.none ?_ σ') ?_
  · refine noteref_none ?_
    have : '[' ∉ tableEnd C := fun hm => by have := tableEnd_nl C _ hm; revert this; decide
    simp [hbr, this]
  rw [glyphs_woven D.uni hps (tableEnd_nl C), trimEndP_of_last (by simpa using weave_last hps)]
  exact Runs.pure _ _

end Rustextile
