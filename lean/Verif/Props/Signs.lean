import Verif.SignDoc
import Verif.Props.Tables

/-!
# Typographic signs: C60, C61, C62
-/

namespace Rustextile

open Prog

/-- **C60.** A document of paragraphs and headings with quotation marks, apostrophes, dashes, dots,
ampersands, character references and marks in brackets, and of the blocks of `C57_tables`, in any order. -/
theorem C60_signs (E : Env) (hU : UniOk E.U) (fuel : Nat) (hf : 3 ≤ fuel) (cfg : Cfg) (base : Str)
    (hb : Spec.PlainBase base) (huid : cfg.uid = t!"textileRef:" ++ base ++ t!":") (hp : cfg.linkPrefix = base ++ t!"-")
    (hbt : cfg.blockTags = true) (hsan : cfg.sanitizer = none) (hdep : 1 ≤ cfg.maxSpanDepth)
    (ok : Char → Prop) (hL : Lowers E.U ok) (ha : ∀ c, c.toNat < 128 → ok c)
    (ds : List (Spec.SgBlock × Nat)) (hne : ds ≠ []) (hok : ∀ d ∈ ds, d.1.Ok E.U.isLu E.U.isNd cfg.lite cfg.restricted)
    (hc : ∀ d ∈ ds, ∀ c ∈ d.1.chars, ok c)
    (hres : ∀ d ∈ ds, d.1.Resolved (Spec.Resolves E.urlParse E.urlJoin cfg.restricted) cfg.rel)
    (htok : ¬ cfg.uid <:+: Spec.sgSource ds)
    (hn : Spec.sgMarks ds < 2 ^ 31) :
    parseFresh E fuel cfg (Spec.sgSource ds) =
      .ok (Spec.sgDocHtml (if cfg.html5 then t!"<br>" else t!"<br />") cfg.restricted base ds) :=
  parse_signs (⟨hU, hf, hb, huid⟩ : DocCtx ⟨E, cfg, fuel⟩ base) hp hbt hsan hdep ha hL hne hok hc hres htok (by omega)

/-! ## Checking that signs are recognised -/

def noTimesB (t : Str) : Bool := !(t.head? == some 'x' || t.head? == some 'X' || (t.head? == some ' ' && (t.tail.head? == some 'x' || t.tail.head? == some 'X')))

theorem noTimes_of_B {t : Str} (h : noTimesB t = true) : Spec.NoTimes t := by
  intro x u hx
  refine ⟨?_, ?_⟩ <;> rintro rfl <;> rcases hx with rfl | rfl <;> simp [noTimesB] at h

def startsInB (l t : Str) : Bool := match t with | [] => true | c :: _ => l.contains c

theorem startsIn_of_B {l t : Str} (h : startsInB l t = true) : Spec.StartsIn l t := by
  rintro c u rfl
  simpa [startsInB] using h

def alnumAt (t : Str) : Bool := match t with | [] => false | c :: _ => Spec.isLetterOrDigit c

def fitsB (b : Option Char) (a : Str) : Spec.Sign → Bool
  | .apostrophe => (b.map Spec.isLetterOrDigit == some true) && noTimesB a && alnumAt a && !((a.tail.head? == some '\'') && alnumAt a.tail.tail)
  | .openSingle => (b == none || b == some ' ' || b == some '\n') && (a.head?.map Spec.isLetter == some true) && a.tail.head? != some ' '
  | .openDouble => (b == none || b == some ' ' || b == some '\n') && alnumAt a && a.tail.head? != some ' '
  | .closeSingle | .closeDouble => b != none && b != some ' ' && b != some '\n' && startsInB t!" \n,./" a && noTimesB a
  | .decade ds => (b == some ' ' || b == some '\n') && decide (2 ≤ ds.length) && ds.all Spec.isDecimal && startsInB t!" \n," a && noTimesB a
  | .ellipsis => b != some '.' && a.head? != some '.'
  | .ampersand | .emDash => true
  | .entity n => !n.isEmpty && n.all Spec.isLowerLetter
  | .enDash => b != none && b != some '\n' && !a.isEmpty && a.head? != some '\n'
  | .mark sq _ _ => noTimesB a && (!sq || (match a with | [] => true | c :: _ => !Spec.isLowerLetter c && c != '/')) &&
      (b == none || b == some ' ' || b == some '\n' || b.map Spec.isLetterOrDigit == some true)

theorem alnumAt_iff {t : Str} (h : alnumAt t = true) : ∃ c u, t = c :: u ∧ Spec.isLetterOrDigit c = true := by
  cases t with
  | nil => cases h
  | cons c u => exact ⟨c, u, rfl, h⟩

theorem fits_of_B {b : Option Char} {a : Str} {s : Spec.Sign} (h : fitsB b a s = true) : s.Fits b a := by
  have gap : ∀ {b : Option Char}, (b == none || b == some ' ' || b == some '\n') = true → ∀ c, b = some c → c = ' ' ∨ c = '\n' := by
    rintro b hb c rfl
    simpa using hb
  have ink : ∀ {b : Option Char}, b ≠ none → b ≠ some ' ' → b ≠ some '\n' → Spec.Behind (fun c => c ≠ ' ' ∧ c ≠ '\n') b := by
    intro b h1 h2 h3
    cases b with
    | none => exact absurd rfl h1
    | some c => exact ⟨c, rfl, by simpa using h2, by simpa using h3⟩
  cases s with
  | apostrophe =>
    simp only [fitsB, Bool.and_eq_true, Bool.not_eq_true', beq_iff_eq] at h
    obtain ⟨⟨⟨h1, h2⟩, h3⟩, h4⟩ := h
    obtain ⟨c, u, rfl, hc⟩ := alnumAt_iff h3
    refine ⟨?_, noTimes_of_B h2, c, u, rfl, hc, ?_⟩
    · cases b with
      | none => cases h1
      | some d => exact ⟨d, rfl, by simpa using h1⟩
    · rintro ⟨d, v, rfl, hd⟩
      simp [alnumAt, hd] at h4
  | openSingle =>
    simp only [fitsB, Bool.and_eq_true, bne_iff_ne, ne_eq, beq_iff_eq] at h
    obtain ⟨⟨h1, h2⟩, h3⟩ := h
    cases a with
    | nil => cases h2
    | cons c u => exact ⟨gap (by simpa using h1), c, u, rfl, by simpa using h2, h3⟩
  | openDouble =>
    simp only [fitsB, Bool.and_eq_true, bne_iff_ne, ne_eq] at h
    obtain ⟨⟨h1, h2⟩, h3⟩ := h
    obtain ⟨c, u, rfl, hc⟩ := alnumAt_iff h2
    exact ⟨gap h1, c, u, rfl, hc, h3⟩
  | closeSingle =>
    simp only [fitsB, Bool.and_eq_true, bne_iff_ne, ne_eq] at h
    exact ⟨ink h.1.1.1.1 h.1.1.1.2 h.1.1.2, startsIn_of_B h.1.2, noTimes_of_B h.2⟩
  | closeDouble =>
    simp only [fitsB, Bool.and_eq_true, bne_iff_ne, ne_eq] at h
    exact ⟨ink h.1.1.1.1 h.1.1.1.2 h.1.1.2, startsIn_of_B h.1.2, noTimes_of_B h.2⟩
  | decade ds =>
    simp only [fitsB, Bool.and_eq_true, Bool.or_eq_true, beq_iff_eq, decide_eq_true_eq, List.all_eq_true] at h
    obtain ⟨⟨⟨⟨h1, h2⟩, h3⟩, h4⟩, h5⟩ := h
    refine ⟨?_, h2, h3, startsIn_of_B h4, noTimes_of_B h5⟩
    rcases h1 with rfl | rfl
    · exact ⟨_, rfl, .inl rfl⟩
    · exact ⟨_, rfl, .inr rfl⟩
  | ellipsis => simpa [fitsB, Spec.Sign.Fits] using h
  | ampersand => trivial
  | entity n => 
    simp only [fitsB, Bool.and_eq_true, Bool.not_eq_true', List.isEmpty_eq_false_iff, List.all_eq_true] at h
    exact h
  | emDash => trivial
  | enDash =>
    simp only [fitsB, Bool.and_eq_true, bne_iff_ne, ne_eq, Bool.not_eq_true', List.isEmpty_eq_false_iff] at h
    obtain ⟨⟨⟨h1, h2⟩, h3⟩, h4⟩ := h
    refine ⟨?_, ?_⟩
    · cases b with
      | none => exact absurd rfl h1
      | some c => exact ⟨c, rfl, by simpa using h2⟩
    · obtain ⟨c, u, rfl⟩ := List.exists_cons_of_ne_nil h3
      exact ⟨c, u, rfl, by simpa using h4⟩
  | mark sq cap m =>
    simp only [fitsB, Bool.and_eq_true] at h
    obtain ⟨⟨h1, h2⟩, h3⟩ := h
    refine ⟨noTimes_of_B h1, ?_, ?_⟩
    · rintro rfl c u rfl
      simpa using h2
    · rintro - c rfl
      have : (c = ' ' ∨ c = '\n') ∨ Spec.isLetterOrDigit c = true := by simpa using h3
      rcases this with (h | h) | h
      · exact .inl h
      · exact .inr (.inl h)
      · exact .inr (.inr h)

def allFitB : Option Char → List (Spec.Sign × Str) → Bool
  | _, [] => true
  | b, p :: ps => fitsB b (p.2 ++ Spec.partsSource ps) p.1 && (ps.isEmpty || !p.2.isEmpty) && allFitB p.2.getLast? ps

theorem allFit_of_B : ∀ {ps : List (Spec.Sign × Str)} {b : Option Char}, allFitB b ps = true → Spec.AllFit b ps
  | [], _, _ => trivial
  | p :: ps, b, h => by
    simp only [allFitB, Bool.and_eq_true, Bool.or_eq_true, List.isEmpty_iff, Bool.not_eq_true', List.isEmpty_eq_false_iff] at h
    obtain ⟨⟨h1, h2⟩, h3⟩ := h
    refine ⟨fits_of_B h1, fun hp => ?_, allFit_of_B h3⟩
    rcases h2 with h2 | h2
    · exact absurd h2 hp
    · exact h2

def sgTextB (up : Char → Bool) (t : Spec.SgText) : Bool :=
  t.texts.all (proseB up) && allFitB t.lead.getLast? t.parts && (t.source.head? != none && t.source.head? != some ' ' && t.source.head? != some '\n') &&
    (t.source.getLast? != some ' ' && t.source.getLast? != some '\n')

theorem sgText_of_B {up : Char → Bool} {t : Spec.SgText} (h : sgTextB up t = true) : t.Ok up := by
  simp only [sgTextB, Bool.and_eq_true, List.all_eq_true, bne_iff_ne, ne_eq] at h
  obtain ⟨⟨⟨h1, h2⟩, ⟨h3, h4⟩, h5⟩, h6, h7⟩ := h
  refine ⟨fun w hw => prose_of_B (h1 w hw), allFit_of_B h2, ?_, ?_⟩
  · cases e : t.source with
    | nil => rw [e] at h3; exact absurd rfl h3
    | cons c u =>
      rw [e] at h4 h5
      exact ⟨c, u, rfl, by simpa using h4, by simpa using h5⟩
  · rintro ⟨u, c, e, hc⟩
    rw [e, List.getLast?_concat] at h6 h7
    rcases hc with rfl | rfl
    · exact h6 rfl
    · exact h7 rfl

/-! ## Apostrophes -/

/-- **C61 (partial).** An apostrophe between two letters or digits becomes the character for it if no
other one follows the next letter. -/
theorem C61_apostrophe_partial (E : Env) (hU : UniOk E.U) (fuel : Nat) (hf : 3 ≤ fuel) (cfg : Cfg) (base : Str)
    (hb : Spec.PlainBase base) (huid : cfg.uid = t!"textileRef:" ++ base ++ t!":") (hp : cfg.linkPrefix = base ++ t!"-")
    (hbt : cfg.blockTags = true) (hsan : cfg.sanitizer = none) (hdep : 1 ≤ cfg.maxSpanDepth)
    (ok : Char → Prop) (hL : Lowers E.U ok) (ha : ∀ c, c.toNat < 128 → ok c)
    (a b : Str) (c d : Char) (h1 : Spec.Prose E.U.isLu (a ++ [c])) (h2 : Spec.Prose E.U.isLu (d :: b))
    (hc : Spec.isLetterOrDigit c = true) (hd : Spec.isLetterOrDigit d = true) (hx : d ≠ 'x' ∧ d ≠ 'X')
    (hfirst : a.head? ≠ some ' ' ∧ a.head? ≠ some '\n') (hlast : ¬ Spec.EndsInSpace b)
    (hs : Spec.NoBlockStart E.U.isNd cfg.lite (a ++ c :: '\'' :: d :: b)) (hl : ¬ Spec.notelistWord <+: a ++ [c])
    (htok : ¬ cfg.uid <:+: a ++ c :: '\'' :: d :: b) :
    parseFresh E fuel cfg (a ++ c :: '\'' :: d :: b) =
      .ok (t!"<p>" ++ Spec.breakLines (if cfg.html5 then t!"<br>" else t!"<br />") (a ++ c :: (t!"&#8217;" ++ d :: b)) ++ t!"</p>") := by
  have hq : '\'' ∉ b := fun hm => prose_nochar h2 (by decide : '\'' ∉ linesA.ascii) (by decide) (by simp [hm])
  have hce : c ≠ ' ' ∧ c ≠ '\n' := ⟨by rintro rfl; revert hc; decide, by rintro rfl; revert hc; decide⟩
  have hde : d ≠ ' ' ∧ d ≠ '\n' := ⟨by rintro rfl; revert hd; decide, by rintro rfl; revert hd; decide⟩
  have hsrc : Spec.SgText.source ⟨a ++ [c], [(.apostrophe, d :: b)]⟩ = a ++ c :: '\'' :: d :: b := by
    simp [Spec.SgText.source, Spec.partsSource, Spec.Sign.source]
  have htext : Spec.SgText.Ok E.U.isLu ⟨a ++ [c], [(.apostrophe, d :: b)]⟩ := by
    refine ⟨?_, ⟨?_, by simp, trivial⟩, ?_, ?_⟩
    · intro w hw
      simp [Spec.SgText.texts] at hw
      rcases hw with rfl | rfl
      · exact h1
      · exact h2
    · refine ⟨⟨c, by simp, hc⟩, ?_, d, b, by simp [Spec.partsSource], hd, ?_⟩
      · intro x u hx'
        simp only [Spec.partsSource, List.flatMap_nil, List.append_nil]
        constructor
        · intro e
          obtain ⟨rfl, -⟩ := List.cons.inj e
          rcases hx' with h | h
          · exact hx.1 h
          · exact hx.2 h
        · intro e
          exact hde.1 (List.cons.inj e).1
      · rintro ⟨y, v, e, -⟩
        exact hq (by rw [e]; simp)
    · rw [hsrc]
      cases a with
      | nil => exact ⟨c, _, rfl, hce⟩
      | cons x a => exact ⟨x, _, rfl, by simpa using hfirst.1, by simpa using hfirst.2⟩
    · rw [hsrc]
      rintro ⟨u, y, e, hy⟩
      rcases List.eq_nil_or_concat b with rfl | ⟨v, z, rfl⟩
      · have := congrArg List.getLast? e
        rw [List.getLast?_concat] at this
        simp at this
        subst this
        rcases hy with h | h
        · exact hde.1 h
        · exact hde.2 h
      · rw [List.concat_eq_append] at e
        have := congrArg List.getLast? e
        rw [List.getLast?_concat, show a ++ c :: '\'' :: d :: (v ++ [z]) = (a ++ c :: '\'' :: d :: v) ++ [z] by simp, List.getLast?_concat] at this
        simp at this
        subst this
        exact hlast ⟨v, z, by simp, hy⟩
  have := C60_signs E hU fuel hf cfg base hb huid hp hbt hsan hdep ok hL ha [(.para ⟨a ++ [c], [(.apostrophe, d :: b)]⟩, 0)] (by simp) ?_
    (by simp [Spec.SgBlock.chars]) (by simp [Spec.SgBlock.Resolved]) ?_ (by simp [Spec.sgMarks, Spec.SgBlock.marks])
  · have e : Spec.sgSource [(.para ⟨a ++ [c], [(.apostrophe, d :: b)]⟩, 0)] = a ++ c :: '\'' :: d :: b := by
      simp [Spec.sgSource, Spec.glue, Spec.SgBlock.source, hsrc]
    rw [e] at this
    rw [this]
    congr 1
    cases cfg.restricted <;> simp [Spec.sgDocHtml, Spec.sgHtml, Spec.sgSeen, Spec.glue, Spec.SgBlock.html, Spec.SgBlock.escaped, Spec.SgText.escaped, Spec.Sign.escaped,
      Spec.SgText.html, Spec.partsHtml, Spec.Sign.html, Spec.charRef, Spec.elementWith]
  · intro x hx
    rw [List.mem_singleton] at hx
    subst hx
    refine ⟨htext, fun _ p hp n => ?_, by rw [hsrc]; exact hs, hl⟩
    rw [List.mem_singleton] at hp
    subst hp
    simp
  · simpa [Spec.sgSource, Spec.glue, Spec.SgBlock.source, hsrc] using htok

/-- **C61 is false in general**: the second one of `rock'n'roll` becomes an opening quotation mark. -/
theorem C61_apostrophe_fails : parseFresh demoEnv 3 demoCfg t!"rock'n'roll" = .ok t!"<p>rock&#8217;n&#8216;roll</p>" := by kernel_rfl

/-! ## Text between signs -/

theorem sgHtml_mem (br base : Str) (restricted : Bool) {b : Spec.SgBlock} {k : Nat} : ∀ {ds : List (Spec.SgBlock × Nat)} {N : Spec.Numbers} {M : Spec.Notes},
    (b, k) ∈ ds → ∃ N' M', (b.html br restricted base N' M', k) ∈ Spec.sgHtml br restricted base N M ds
  | [], _, _, h => by cases h
  | d :: ds, N, M, h => by
    rcases List.mem_cons.1 h with rfl | h
    · exact ⟨N, M, by simp [Spec.sgHtml]⟩
    · obtain ⟨N', M', h'⟩ := sgHtml_mem br base restricted (ds := ds) (N := d.1.numbers N) (M := d.1.notes M) h
      exact ⟨N', M', by simp [Spec.sgHtml, h']⟩

/-- **C62 (partial).** In the documents of C60, the texts between the signs of a paragraph are kept, in order. -/
theorem C62_text_kept_partial (E : Env) (hU : UniOk E.U) (fuel : Nat) (hf : 3 ≤ fuel) (cfg : Cfg) (base : Str)
    (hb : Spec.PlainBase base) (huid : cfg.uid = t!"textileRef:" ++ base ++ t!":") (hp : cfg.linkPrefix = base ++ t!"-")
    (hbt : cfg.blockTags = true) (hsan : cfg.sanitizer = none) (hdep : 1 ≤ cfg.maxSpanDepth)
    (ok : Char → Prop) (hL : Lowers E.U ok) (ha : ∀ c, c.toNat < 128 → ok c)
    (ds : List (Spec.SgBlock × Nat)) (hok : ∀ d ∈ ds, d.1.Ok E.U.isLu E.U.isNd cfg.lite cfg.restricted)
    (hc : ∀ d ∈ ds, ∀ c ∈ d.1.chars, ok c)
    (hres : ∀ d ∈ ds, d.1.Resolved (Spec.Resolves E.urlParse E.urlJoin cfg.restricted) cfg.rel)
    (htok : ¬ cfg.uid <:+: Spec.sgSource ds)
    (hn : Spec.sgMarks ds < 2 ^ 31) (t : Spec.SgText) (k : Nat) (ht : (.para t, k) ∈ ds) :
    ∃ out, parseFresh E fuel cfg (Spec.sgSource ds) = .ok out ∧
      Spec.InOrder (t.texts.map (Spec.breakLines (if cfg.html5 then t!"<br>" else t!"<br />"))) out := by
  refine ⟨_, C60_signs E hU fuel hf cfg base hb huid hp hbt hsan hdep ok hL ha ds (List.ne_nil_of_mem ht) hok hc hres htok hn, ?_⟩
  generalize (if cfg.html5 then t!"<br>" else t!"<br />") = br
  have hm : ∃ u, ((.para u : Spec.SgBlock), k) ∈ Spec.sgSeen cfg.restricted ds ∧ u.texts = t.texts := by
    unfold Spec.sgSeen
    split
    · exact ⟨t.escaped, List.mem_map.2 ⟨_, ht, rfl⟩, by simp [Spec.SgText.texts, Spec.SgText.escaped, Function.comp_def]⟩
    · exact ⟨t, ht, rfl⟩
  obtain ⟨u, hu, e⟩ := hm
  obtain ⟨N', M', h'⟩ := sgHtml_mem br base cfg.restricted (N := fun _ => 1) (M := ⟨[], 0⟩) hu
  obtain ⟨x, y, e2⟩ := glue_infix h'
  rw [Spec.sgDocHtml, ← e2, ← e, List.append_assoc]
  refine InOrder.within x y ?_
  have key : ∀ ps : List (Spec.Sign × Str), Spec.InOrder ((ps.map (·.2)).map (Spec.breakLines br)) (Spec.breakLines br (Spec.partsHtml ps)) := by
    intro ps
    induction ps with
    | nil => trivial
    | cons p ps ih =>
      refine ⟨Spec.breakLines br p.1.html, Spec.breakLines br (Spec.partsHtml ps), ?_, ih⟩
      simp [Spec.breakLines, Spec.partsHtml]
  have h2 : Spec.InOrder (u.texts.map (Spec.breakLines br)) (u.html br) := by
    refine ⟨[], Spec.breakLines br (Spec.partsHtml u.parts), ?_, key u.parts⟩
    simp [Spec.SgText.html, Spec.breakLines]
  have := InOrder.within t!"<p>" t!"</p>" h2
  simpa [Spec.SgBlock.html, Spec.elementWith] using this

/-- **C62 is false in general**: the word after a mark in square brackets can be taken for a URL and lost. -/
theorem C62_text_kept_fails : ∃ out, parseFresh demoEnv 3 demoCfg t!"[c]files are here" = .ok out ∧ ¬ t!"files" <:+: out := by
  refine ⟨t!"<p> are here</p>", by kernel_rfl, ?_⟩
  rintro ⟨a, b, e⟩
  have : containsStr t!"files" t!"<p> are here</p>" = true := containsStr_iff.2 ⟨a, b, by rw [← e]; simp⟩
  revert this
  decide +kernel

/-! ## Example -/

def demoSg : Spec.SgText := ⟨t!"Tom", [(.apostrophe, t!"s "), (.openDouble, t!"book"), (.closeDouble, t!" "), (.emDash, t!" it"), (.apostrophe, t!"s "),
  (.openSingle, t!"good"), (.closeSingle, t!" for $5"), (.enDash, t!"by me "), (.mark false false .copyright, t!" "), (.ampersand, t!" more"), (.entity t!"nbsp", t!"text in the "),
  (.decade t!"80", t!" or so"), (.ellipsis, t!" at 20"), (.mark true false .degree, t!" and "), (.mark true false .half, t!"\n"), (.openDouble, t!"End"), (.closeDouble, t!"")]⟩

/-- A text for restricted mode, where the ampersand is escaped first. -/
def demoSg' : Spec.SgText := ⟨t!"R", [(.ampersand, t!"D "), (.emDash, t!" it"), (.apostrophe, t!"s more")]⟩

def demoSgDoc : List (Spec.SgBlock × Nat) := [(.para demoSg, 0), (.other (.table demoTable), 0), (.styled t!"h2" { align := some .center } demoSg', 1)]

theorem demoSg_ok : ∀ d ∈ demoSgDoc, d.1.Ok demoUni.isLu demoUni.isNd false false := by
  intro d hd
  simp only [demoSgDoc, List.mem_cons, List.not_mem_nil, or_false] at hd
  rcases hd with rfl | rfl | rfl
  · exact ⟨sgText_of_B (by decide +kernel), by simp, noBlockStart_head (by decide), by decide⟩
  · exact demoTb_ok demoTb[1] (by simp [demoTb])
  · exact ⟨sgText_of_B (by decide +kernel), by simp, ⟨by simp, by simp⟩, fun _ => trivial, rfl, by decide, by decide⟩

example : parseFresh demoEnv 3 demoCfg
    t!"Tom's \"book\" -- it's 'good' for $5 - by me (c) & more&nbsp;text in the '80 or so... at 20[o] and [1/2]\n\"End\"\n\n|^.\n|_. Name|_. Price|\n|-.\n|apple|$2.50|\n|pear||\n\nh2=. R&D -- it's more" =
    .ok t!"<p>Tom&#8217;s &#8220;book&#8221; &#8212; it&#8217;s &#8216;good&#8217; for $5 &#8211; by me &#169; &amp; more&nbsp;text in the &#8217;80 or so&#8230; at 20&#176; and &#189;<br>\n&#8220;End&#8221;</p>\n\n\t<table>\n\t<thead>\n\t\t<tr>\n\t\t\t<th>Name</th>\n\t\t\t<th>Price</th>\n\t\t</tr>\n\t</thead>\n\t<tbody>\n\t\t<tr>\n\t\t\t<td>apple</td>\n\t\t\t<td>$2.50</td>\n\t\t</tr>\n\t\t<tr>\n\t\t\t<td>pear</td>\n\t\t\t<td></td>\n\t\t</tr>\n\t</tbody>\n\t</table>\n\n<h2 style=\"text-align:center;\">R&amp;D &#8212; it&#8217;s more</h2>" := by
  have := C60_signs demoEnv UniOk.demo 3 (by decide) demoCfg t!"abc" plainBase_demo rfl rfl rfl rfl (by decide)
    _ demo_lowers (fun _ h => h) demoSgDoc (by decide) demoSg_ok (by decide +kernel) (by simp [demoSgDoc, Spec.SgBlock.Resolved, Spec.TbBlock.Resolved]) (by decide +kernel) (by decide)
  refine Eq.trans (Eq.trans ?_ this) ?_ <;> exact congrArg _ (by decide +kernel)

/-- In restricted mode. -/
example : parseFresh demoEnv 3 { demoCfg with restricted := true } t!"R&D -- it's more" = .ok t!"<p>R&amp;D &#8212; it&#8217;s more</p>" := by
  have := C60_signs demoEnv UniOk.demo 3 (by decide) { demoCfg with restricted := true } t!"abc" plainBase_demo rfl rfl rfl rfl (by decide)
    _ demo_lowers (fun _ h => h) [(.para demoSg', 0)] (by decide) ?_ (by decide +kernel) (by simp [Spec.SgBlock.Resolved]) (by decide +kernel) (by decide)
  · refine Eq.trans (Eq.trans ?_ this) ?_ <;> exact congrArg _ (by decide +kernel)
  · intro d hd
    rw [List.mem_singleton] at hd
    subst hd
    refine ⟨sgText_of_B (by decide +kernel), fun _ p hp n => ?_, noBlockStart_head (by decide), by decide⟩
    simp only [demoSg', List.mem_cons, List.not_mem_nil, or_false] at hp
    rcases hp with rfl | rfl | rfl <;> simp

example : ∃ out, parseFresh demoEnv 3 demoCfg (Spec.sgSource demoSgDoc) = .ok out ∧ Spec.InOrder (demoSg.texts.map (Spec.breakLines t!"<br>")) out :=
  C62_text_kept_partial demoEnv UniOk.demo 3 (by decide) demoCfg t!"abc" plainBase_demo rfl rfl rfl rfl (by decide)
    _ demo_lowers (fun _ h => h) demoSgDoc demoSg_ok (by decide +kernel) (by simp [demoSgDoc, Spec.SgBlock.Resolved, Spec.TbBlock.Resolved]) (by decide +kernel) (by decide)
    demoSg 0 (by simp [demoSgDoc])

example : parseFresh demoEnv 3 demoCfg t!"Tom's" = .ok t!"<p>Tom&#8217;s</p>" :=
  C61_apostrophe_partial demoEnv UniOk.demo 3 (by decide) demoCfg t!"abc" plainBase_demo rfl rfl rfl rfl (by decide) _ demo_lowers (fun _ h => h)
    t!"To" [] 'm' 's' (prose_of_B (by decide)) (prose_of_B (by decide)) (by decide) (by decide) (by decide) (by decide)
    (by rintro ⟨u, c, e, -⟩; simp at e) (noBlockStart_head (by decide)) (by decide) (by decide +kernel)

end Rustextile
