import Verif.ImageDoc
import Verif.SpecEnds
import Verif.Props.Html

/-!
# Endnotes

What `graf` does with a text with references to endnotes.
-/

namespace Rustextile

open Prog

/-! ## Texts with references -/

def enM : Auto := [
  (true, [(inkA, 1), (gapA, 2)]),
  (true, [(inkA, 1), (gapA, 2), (oneA '[', 3)]),
  (true, [(inkA, 1), (gapA, 2)]),
  (false, [(oneA '#', 4)]),
  (false, [(nameA, 5)]),
  (false, [(nameA, 5), (oneA ']', 1)])]

set_option maxRecDepth 100000 in
theorem enM_ok : enM.wf = true ∧ earlyPatterns.all (enM.avoids ·) = true ∧ enM.avoids TABLE_RE = true ∧
    (latePatterns.filter (fun r => r != NOTEREF_RE)).all (enM.avoids ·) = true ∧ enM.avoids NOTEDEF_RE = true ∧ enM.avoids DIVIDER_RE = true := by
  decide +kernel

theorem enM_text {rest : Str} (hr : enM.Run 1 rest) : ∀ {w : Str} {q : Nat}, q = 0 ∨ q = 1 ∨ q = 2 → linesA.Over w → ¬ Spec.EndsInSpace w →
    (w = [] → q = 1) → enM.Run q (w ++ rest)
  | [], q, _, _, _, h => by rw [h rfl]; exact hr
  | c :: w, q, hq, hA, hs, _ => by
    have hs' : ¬ Spec.EndsInSpace w := by rintro ⟨u, x, rfl, hx⟩; exact hs ⟨c :: u, x, rfl, hx⟩
    have hA' : linesA.Over w := fun x hx => hA x (by simp [hx])
    have hq' : (inkA, 1) ∈ enM.step q ∧ (gapA, 2) ∈ enM.step q := by
      rcases hq with rfl | rfl | rfl <;> simp [enM, Auto.step]
    rcases ink_or_gap (hA c (by simp)) with h | ⟨h, hc⟩
    · exact ⟨_, hq'.1, h, enM_text hr (.inr (.inl rfl)) hA' hs' (fun _ => rfl)⟩
    · refine ⟨_, hq'.2, h, enM_text hr (.inr (.inr rfl)) hA' hs' ?_⟩
      rintro rfl
      exact absurd ⟨[], c, rfl, hc⟩ hs

theorem enM_newlines : ∀ {n : Str} {q : Nat}, (∀ c ∈ n, c = '\n') → q = 1 ∨ q = 2 → enM.Run q n
  | [], q, _, h => by rcases h with rfl | rfl <;> rfl
  | c :: n, q, hn, h => by
    have hc := hn c (by simp)
    subst hc
    refine ⟨(gapA, 2), ?_, .inl (by simp [gapA]), enM_newlines (fun x hx => hn x (by simp [hx])) (.inr rfl)⟩
    rcases h with rfl | rfl <;> simp [enM, Auto.step]

theorem label_mem {c : Char} (h : Spec.isLetterOrDigit c = true) : c ∈ asciiAlnum := by
  have h0 : (65 ≤ c.toNat ∧ c.toNat ≤ 90) ∨ (97 ≤ c.toNat ∧ c.toNat ≤ 122) ∨ (48 ≤ c.toNat ∧ c.toNat ≤ 57) := by
    simp [Spec.isLetterOrDigit, Spec.isLetter, Spec.isDecimal] at h; omega
  have key : ∀ n < 128, ((65 ≤ n ∧ n ≤ 90) ∨ (97 ≤ n ∧ n ≤ 122) ∨ (48 ≤ n ∧ n ≤ 57)) → Char.ofNat n ∈ asciiAlnum := by decide +kernel
  have := key c.toNat (by omega) h0
  rwa [Char.ofNat_toNat] at this

theorem label_not {d : Char} (hd : d ∉ asciiAlnum) {l : Str} (h : Spec.isLabel l) : d ∉ l := fun hm => hd (label_mem (h.2 d hm))

def enRefs (rs : List (Str × Str)) : Str := rs.flatMap (fun r => '[' :: '#' :: (r.1 ++ ']' :: r.2))

theorem enRefs_cons (r : Str × Str) (rs : List (Str × Str)) :
    enRefs (r :: rs) = '[' :: '#' :: (r.1 ++ ']' :: (r.2 ++ enRefs rs)) := by simp [enRefs]

structure EnOk (U : Uni) (w : Str) (rs : List (Str × Str)) : Prop where
  lead : Spec.Prose U.isLu w ∧ ¬ Spec.EndsInSpace w
  texts : ∀ r ∈ rs, Spec.Prose U.isLu r.2 ∧ ¬ Spec.EndsInSpace r.2
  labels : ∀ r ∈ rs, Spec.isLabel r.1

theorem EnOk.tail {U : Uni} {w : Str} {r : Str × Str} {rs : List (Str × Str)} (h : EnOk U w (r :: rs)) : EnOk U r.2 rs :=
  ⟨h.texts r (by simp), fun x hx => h.texts x (by simp [hx]), fun x hx => h.labels x (by simp [hx])⟩

theorem enM_run {U : Uni} {n : Str} (hn : ∀ c ∈ n, c = '\n') : ∀ {rs : List (Str × Str)} {w : Str} {q : Nat}, EnOk U w rs → q = 0 ∨ q = 1 ∨ q = 2 →
    (w = [] → q = 1) → enM.Run q (w ++ (enRefs rs ++ n))
  | [], w, q, h, hq, hw => enM_text (rest := enRefs [] ++ n) (enM_newlines hn (.inl rfl)) hq (prose_over h.lead.1) h.lead.2 hw
  | r :: rs, w, q, h, hq, hw => by
    refine enM_text ?_ hq (prose_over h.lead.1) h.lead.2 hw
    rw [enRefs_cons]
    have h1 := enM_run hn h.tail (.inr (.inl rfl)) (fun _ => rfl)
    obtain ⟨h2, h3⟩ := h.labels r (by simp)
    refine run_one (q' := 3) (by simp [enM, Auto.step]) (run_one (q' := 4) (by simp [enM, Auto.step]) ?_)
    have h4 : enM.Run 5 (']' :: (r.2 ++ enRefs rs) ++ n) := by
      refine run_one (q' := 1) (by simp [enM, Auto.step]) ?_
      simpa using h1
    have := run_plus (M := enM) (A := nameA) (p := 4) (q := 5) (by simp [enM, Auto.step]) (by simp [enM, Auto.step]) h4 (w := r.1)
      (fun c hc => .inl (label_mem (h3 c hc))) h2
    simpa using this

/-- What `graf` needs to know of a text with references before they are replaced. -/
structure EnQuiet (U : Uni) (t : Str) : Prop where
  early : ∀ r ∈ earlyPatterns, r.search U [] t = none
  table : TABLE_RE.search U [] (t ++ t!"\n\n") = none
  late : ∀ n, n = [] ∨ n = t!"\n\n" → ∀ r ∈ latePatterns, r ≠ NOTEREF_RE → r.search U [] (t ++ n) = none
  notedef : NOTEDEF_RE.search U [] t = none
  divider : DIVIDER_RE.search U [] t = none

theorem enQuiet {U : Uni} (hU : UniOk U) {w : Str} {rs : List (Str × Str)} (hok : EnOk U w rs) (hw : w ≠ []) : EnQuiet U (w ++ enRefs rs) := by
  have h : ∀ n, (∀ c ∈ n, c = '\n') → enM.Run 0 ((w ++ enRefs rs) ++ n) := by
    intro n hn
    rw [List.append_assoc]
    exact enM_run hn hok (.inl rfl) (fun e => absurd e hw)
  obtain ⟨h1, h2, h3, h4, h5, h6⟩ := enM_ok
  have h0 := h [] (by simp)
  rw [List.append_nil] at h0
  have hl : 0 < enM.length := by decide
  refine ⟨?_, ?_, ?_, ?_, ?_⟩
  · intro r hr
    exact Auto.search_none hU h1 (List.all_eq_true.1 h2 r hr) hl h0
  · exact Auto.search_none hU h1 h3 hl (h _ (by simp))
  · intro n hn r hr hne
    refine Auto.search_none hU h1 (List.all_eq_true.1 h4 r (List.mem_filter.2 ⟨hr, by simpa using hne⟩)) hl (h n ?_)
    rcases hn with rfl | rfl <;> simp
  · exact Auto.search_none hU h1 h5 hl h0
  · exact Auto.search_none hU h1 h6 hl h0

/-! ## Replacing the references -/

theorem NOTEREF_shape : NOTEREF_RE = .seq (.set false [.chr '[']) (.seq (.grp 1 groupsRe) (.seq (.set false [.chr '#'])
    (.seq (.grp 2 (.seq (.set true [.chr ']', .chr '!']) (.star true (.set true [.chr ']', .chr '!']))))
    (.seq (.grp 3 (.alt (.set false [.chr '!']) .eps)) (.set false [.chr ']']))))) := by kernel_rfl

theorem NOTEREF_nonnull : NOTEREF_RE.nonnull = true := by kernel_rfl

theorem en_miss {U : Uni} {pre rest : Str} {c : Char} (h : c ≠ '[') : NOTEREF_RE.matchAt U ⟨pre, c :: rest⟩ = none := by
  rw [Re.matchAt_none]
  cases hl : NOTEREF_RE.all U ⟨pre, c :: rest⟩ [] with
  | nil => rfl
  | cons p l =>
    exfalso
    obtain ⟨w, hw, lw⟩ := Re.all_lang NOTEREF_RE ⟨pre, c :: rest⟩ [] p (by rw [hl]; simp)
    rw [NOTEREF_shape] at lw
    obtain ⟨_, v, rfl, h2, -⟩ := lw
    rw [show _ = ['['] from lang_chr.1 h2] at hw
    have := hw.1
    simp at this
    exact h this.1

theorem en_skips {U : Uni} {w : Str} (h : '[' ∉ w) (pre rest : Str) : Skips U NOTEREF_RE pre w rest := by
  intro u x v e
  exact en_miss (by rintro rfl; exact h (by rw [e]; simp))

theorem en_hit {U : Uni} {pre l rest : Str} (hl : Spec.isLabel l) :
    NOTEREF_RE.matchAt U ⟨pre, ('[' :: '#' :: (l ++ t!"]")) ++ rest⟩ =
      some (⟨('[' :: '#' :: (l ++ t!"]")).reverse ++ pre, rest⟩, [(3, []), (2, l), (1, [])]) := by
  rw [NOTEREF_shape]
  apply Heads.matchAt
  have e : '[' :: '#' :: (l ++ t!"]") = ['['] ++ ([] ++ (['#'] ++ (l ++ ([] ++ [']'])))) := by simp
  rw [e]
  refine Heads.seq .chr (Heads.seq (s1 := [(1, [])]) (Heads.grp (s' := []) ?_) (Heads.seq .chr
    (Heads.seq (s1 := [(2, l), (1, [])]) (Heads.grp (s' := [(1, [])]) (Heads.plus hl.1 ?_ ?_))
    (Heads.seq (s1 := [(3, []), (2, l), (1, [])]) (Heads.grp (s' := [(2, l), (1, [])]) (Heads.right ?_ .eps)) .chr))))
  · exact groups_heads (gs := []) (by simp) (by simp) (by intro c hc; simp at hc; subst hc; decide)
  · intro x hx
    have h1 := label_not (d := ']') (by decide +kernel) hl
    have h2 := label_not (d := '!') (by decide +kernel) hl
    have e1 : x ≠ ']' := by rintro rfl; exact h1 hx
    have e2 : x ≠ '!' := by rintro rfl; exact h2 hx
    simp [evalSet, Item.eval_chr, e1, e2]
  · intro x hx
    simp at hx; subst hx
    simp [evalSet, Item.eval_chr]
  · simp [Re.all, evalSet, Item.eval_chr]

/-! ## The state -/

def noteInfo (base : Str) (n : Spec.EndNote) : NoteInfo :=
  ⟨Spec.noteId base n.id, n.body.map (·.text), (n.body.bind (·.back)).map (fun b => [b.mark]), n.body.map (·.atts),
    some (natStr n.number), n.refs.map (Spec.noteId base)⟩

/-- The notes in the state of the parser. -/
structure EndsIn (base : Str) (E : Spec.Ends) (a : Aux) : Prop where
  known : ∀ l n, E.find l = some n → alLookup l a.notes = some (noteInfo base n)
  loose : ∀ l, E.find l = none → l ∈ E.loose → ∃ i, alLookup l a.notes = some i ∧ i.seq = none
  fresh : ∀ l, E.find l = none → l ∉ E.loose → alLookup l a.notes = none
  sorted : Spec.SortedNames a.notes
  labels : (E.notes.map (·.label)).Nodup
  index : a.noteIndex = E.notes.length + 1
  cache : a.notelistCache = []

structure BookState (base : Str) (B : Spec.Book) (σ : PState) : Prop where
  look : ∀ l, alLookup l σ.footnotes = (B.foot.number l).map (Spec.noteId base)
  link : σ.linkIndex = B.foot.last
  ends : EndsIn base B.ends σ.aux

theorem EndsIn.congr {base : Str} {E : Spec.Ends} {a b : Aux} (h : EndsIn base E a) (h1 : b.notes = a.notes) (h2 : b.noteIndex = a.noteIndex)
    (h3 : b.notelistCache = a.notelistCache) : EndsIn base E b :=
  ⟨by rw [h1]; exact h.known, by rw [h1]; exact h.loose, by rw [h1]; exact h.fresh, by rw [h1]; exact h.sorted, h.labels, by rw [h2]; exact h.index,
    by rw [h3]; exact h.cache⟩

theorem find_label {E : Spec.Ends} {l : Str} {n : Spec.EndNote} (h : E.find l = some n) : n.label = l := by
  have := List.find?_some h
  simpa using this

theorem find_change {E : Spec.Ends} {l m : Str} {f : Spec.EndNote → Spec.EndNote} (hf : ∀ n, (f n).label = n.label) :
    (E.change l f).find m = if m = l then (E.find m).map f else E.find m := by
  unfold Spec.Ends.find Spec.Ends.change
  simp only
  induction E.notes with
  | nil => simp
  | cons n ns ih =>
    rw [List.map_cons, List.find?_cons, List.find?_cons, ih]
    by_cases h1 : n.label = l
    · rw [if_pos h1, hf]
      by_cases h2 : n.label = m
      · simp [h2, ← h1]
      · have : (n.label == m) = false := by simpa using h2
        rw [this]
    · rw [if_neg h1]
      by_cases h2 : n.label = m
      · have : m ≠ l := fun e => h1 (h2.trans e)
        simp [h2, this]
      · have : (n.label == m) = false := by simpa using h2
        rw [this]

theorem labels_change (E : Spec.Ends) (l : Str) {f : Spec.EndNote → Spec.EndNote} (hf : ∀ n, (f n).label = n.label) :
    (E.change l f).notes.map (·.label) = E.notes.map (·.label) := by
  unfold Spec.Ends.change
  simp only [List.map_map]
  apply List.map_congr_left
  intro n _
  simp only [Function.comp]
  split
  · exact hf n
  · rfl

theorem find_none {E : Spec.Ends} {l : Str} (h : E.find l = none) : l ∉ E.notes.map (·.label) := by
  intro hm
  obtain ⟨n, hn, rfl⟩ := List.mem_map.1 hm
  have := List.find?_eq_none.1 h n hn
  simp at this

/-- A change of a note that is known. -/
theorem EndsIn.change {base : Str} {E : Spec.Ends} {a b : Aux} (h : EndsIn base E a) {l : Str} {n : Spec.EndNote} (hn : E.find l = some n)
    {f : Spec.EndNote → Spec.EndNote} (hf : ∀ n, (f n).label = n.label) (h1 : b.notes = btInsert l (noteInfo base (f n)) a.notes)
    (h2 : b.noteIndex = a.noteIndex) (h3 : b.notelistCache = a.notelistCache) : EndsIn base (E.change l f) b := by
  have hlen : (E.change l f).notes.length = E.notes.length := by simp [Spec.Ends.change]
  refine ⟨?_, ?_, ?_, ?_, ?_, ?_, ?_⟩
  · intro m k hk
    rw [find_change hf] at hk
    rw [h1, btInsert_lookup]
    by_cases hm : m = l
    · subst hm
      rw [if_pos rfl, hn] at hk
      simp at hk
      rw [if_pos rfl, hk]
    · rw [if_neg hm] at hk
      rw [if_neg (fun e => hm e.symm)]
      exact h.known m k hk
  · intro m hk hl
    rw [find_change hf] at hk
    rw [h1, btInsert_lookup]
    by_cases hm : m = l
    · subst hm
      rw [if_pos rfl, hn] at hk
      simp at hk
    · rw [if_neg hm] at hk
      rw [if_neg (fun e => hm e.symm)]
      exact h.loose m hk hl
  · intro m hk hl
    rw [find_change hf] at hk
    rw [h1, btInsert_lookup]
    by_cases hm : m = l
    · subst hm
      rw [if_pos rfl, hn] at hk
      simp at hk
    · rw [if_neg hm] at hk
      rw [if_neg (fun e => hm e.symm)]
      exact h.fresh m hk hl
  · rw [h1]; exact btInsert_sorted _ _ h.sorted
  · rw [labels_change E l hf]; exact h.labels
  · rw [h2, h.index, hlen]
  · rw [h3]; exact h.cache

/-- A note that becomes known. -/
theorem EndsIn.add {base : Str} {E : Spec.Ends} {a b : Aux} (h : EndsIn base E a) {l : Str} {n : Spec.EndNote} (hn : E.find l = none) (hl : n.label = l)
    (h1 : ∀ m, alLookup m b.notes = if l = m then some (noteInfo base n) else alLookup m a.notes) (hs : Spec.SortedNames b.notes)
    (h2 : b.noteIndex = a.noteIndex + 1) (h3 : b.notelistCache = a.notelistCache) : EndsIn base { E with notes := E.notes ++ [n] } b := by
  have hfind : ∀ m, Spec.Ends.find { E with notes := E.notes ++ [n] } m = if l = m then some n else E.find m := by
    intro m
    unfold Spec.Ends.find
    simp only [List.find?_append]
    by_cases hm : l = m
    · subst hm
      rw [if_pos rfl, show List.find? (fun n => n.label == l) E.notes = none from hn]
      simp [hl]
    · rw [if_neg hm]
      have : (n.label == m) = false := by simpa [hl] using hm
      simp [this]
  refine ⟨?_, ?_, ?_, hs, ?_, ?_, ?_⟩
  · intro m k hk
    rw [hfind] at hk
    rw [h1]
    by_cases hm : l = m
    · rw [if_pos hm] at hk ⊢
      simp at hk
      rw [hk]
    · rw [if_neg hm] at hk ⊢
      exact h.known m k hk
  · intro m hk hlo
    rw [hfind] at hk
    by_cases hm : l = m
    · rw [if_pos hm] at hk; cases hk
    · rw [if_neg hm] at hk
      rw [h1, if_neg hm]
      exact h.loose m hk hlo
  · intro m hk hlo
    rw [hfind] at hk
    by_cases hm : l = m
    · rw [if_pos hm] at hk; cases hk
    · rw [if_neg hm] at hk
      rw [h1, if_neg hm]
      exact h.fresh m hk hlo
  · simp only [List.map_append, List.map_cons, List.map_nil]
    rw [List.nodup_append]
    refine ⟨h.labels, by simp, ?_⟩
    intro x hx y hy
    rw [List.mem_singleton] at hy
    subst hy
    rintro rfl
    exact find_none hn (by rw [hl] at hx; exact hx)
  · simp [h2, h.index]
  · rw [h3]; exact h.cache

/-! ## One reference -/

def enHref (base : Str) (B : Spec.Book) (l : Str) : Str :=
  match B.ends.find l with
  | some _ => []
  | none => Spec.noteId base (B.foot.last + 2)

def enNum (B : Spec.Book) (l : Str) : Nat :=
  match B.ends.find l with
  | some n => n.number
  | none => B.ends.notes.length + 1

def enAtt (base : Str) (B : Spec.Book) (l : Str) : Str := Spec.attr Spec.hrefAttr (some (t!"#note" ++ enHref base B l))
def enIdAtt (base : Str) (B : Spec.Book) : Str := Spec.attr Spec.idAttr (some (t!"noteref" ++ Spec.noteId base (B.foot.last + 1)))

theorem enRefHtml_eq (base : Str) (B : Spec.Book) (l : Str) : B.refHtml base l =
    openTagA t!"sup" [] ++ (openTagA t!"a" (enAtt base B l) ++ (openTagA t!"span" (enIdAtt base B) ++ (natStr (enNum B l) ++
      (closeTag t!"span" ++ (closeTag t!"a" ++ closeTag t!"sup"))))) := by
  unfold Spec.Book.refHtml enAtt enIdAtt enHref enNum
  simp only [natStr_numeral, elementWith_eq, Spec.supTag, Spec.spanTag, Spec.noteName, Spec.noterefName, List.append_assoc]
  rfl

theorem noteId_ne (base : Str) (k : Nat) : (Spec.noteId base k).isEmpty = false := by simp [Spec.noteId]

theorem Runs.pure' {C : Ctx} {a b : Str} {σ : PState} (h : a = b) : Runs C (Pure.pure a : Prog Str) b σ σ := by subst h; exact Runs.pure _ _

theorem runs_addRef {C : Ctx} (f : Aux → Aux) (σ : PState) : Runs C (setAuxP f) () σ { σ with aux := f σ.aux } := Runs.setAux f σ

theorem fNoteRef_runs {C : Ctx} {base : Str} (hU : UniOk C.U) (hp : C.cfg.linkPrefix = base ++ t!"-")
    {B : Spec.Book} {σ : PState} (hσ : BookState base B σ) {l : Str} :
    ∃ σ1, (∀ gap w, Runs C (fNoteRef C ⟨gap, w, [(3, []), (2, l), (1, [])]⟩) (B.refHtml base l) σ σ1) ∧
      BookState base (B.refer l) σ1 ∧ Grows C.cfg.uid σ σ1 ∧ σ1.refIndex = σ.refIndex ∧ σ1.aux.olStarts = σ.aux.olStarts := by
  have hsup : ∀ content atts, generateTag C.U t!"sup" (some content) atts = openTagA t!"sup" (joinAttrs atts) ++ (content ++ closeTag t!"sup") :=
    fun content atts => genTag_eq hU (by simp) (by decide +kernel)
  have hj : joinAttrs ({} : BAttrs).html = [] := rfl
  have hgrp : ∀ (gap w : Str), (⟨gap, w, [(3, []), (2, l), (1, [])]⟩ : Mat).grp 1 = [] ∧
      (⟨gap, w, [(3, []), (2, l), (1, [])]⟩ : Mat).grp 2 = l ∧ (⟨gap, w, [(3, []), (2, l), (1, [])]⟩ : Mat).grp 3 = [] :=
    fun gap w => ⟨rfl, rfl, rfl⟩
  cases hB : B.ends.find l with
  | some n =>
    have hk := hσ.ends.known l n hB
    have hadd : addRefId l (Spec.noteId base (B.foot.last + 1)) none σ.aux =
        { σ.aux with notes := btInsert l (noteInfo base { n with refs := n.refs ++ [B.foot.last + 1] }) σ.aux.notes } := by
      unfold addRefId
      rw [hk]
      simp [noteInfo]
    refine ⟨{ σ with linkIndex := B.foot.last + 1, aux := { σ.aux with notes := btInsert l (noteInfo base { n with refs := n.refs ++ [B.foot.last + 1] }) σ.aux.notes } },
      ?_, ?_, ⟨rfl, Nat.le_refl _, fun _ _ => ⟨rfl, rfl⟩, fun h => h, rfl⟩, rfl, rfl⟩
    · intro gap w
      obtain ⟨g1, g2, g3⟩ := hgrp gap w
      unfold fNoteRef
      rw [g1, g2, g3, parseAttrs_nil]
      simp only [pure_bind]
      refine Runs.bind (a := natStr n.number) (σ' := σ) ?_ ?_
      · unfold noteSeq
        refine Runs.bind (runs_getSt σ) ?_
        rw [hk]
        exact Runs.pure _ _
      refine Runs.bind (runs_incLink σ) ?_
      refine Runs.bind (runs_getSt _) ?_
      simp only [hk, hσ.link]
      have he : (noteInfo base n).id.isEmpty = false := noteId_ne _ _
      simp only [he, Bool.false_eq_true, if_false, pure_bind, linkId hp]
      refine Runs.bind (runs_addRef _ _) ?_
      simp only [hadd, hsup]
      rw [enRefHtml_eq]
      simp only [enAtt, enIdAtt, enHref, enNum, hB]
      refine Runs.pure' ?_
      simp [openTagA, closeTag, Spec.attr, Spec.hrefAttr, Spec.idAttr, hj, hσ.ends.index]
    · unfold Spec.Book.refer
      rw [hB]
      refine ⟨hσ.look, rfl, ?_⟩
      exact hσ.ends.change hB (f := fun n => { n with refs := n.refs ++ [B.foot.last + 1] }) (fun _ => rfl) rfl rfl rfl
  | none =>
    have hk : (alLookup l σ.aux.notes).bind (·.seq) = none := by
      by_cases hl : l ∈ B.ends.loose
      · obtain ⟨i, h1, h2⟩ := hσ.ends.loose l hB hl
        rw [h1]; exact h2
      · rw [hσ.ends.fresh l hB hl]; rfl
    let a1 : Aux := { σ.aux with notes := btInsert l ⟨[], none, none, none, some (natStr σ.aux.noteIndex), []⟩ σ.aux.notes, noteIndex := σ.aux.noteIndex + 1 }
    have hk1 : alLookup l a1.notes = some ⟨[], none, none, none, some (natStr σ.aux.noteIndex), []⟩ := by
      simp only [a1]
      rw [btInsert_lookup, if_pos rfl]
    let nn : Spec.EndNote := ⟨l, B.ends.notes.length + 1, B.foot.last + 2, [B.foot.last + 1], none⟩
    have hadd : addRefId l (Spec.noteId base (B.foot.last + 1)) (some (Spec.noteId base (B.foot.last + 2))) a1 =
        { a1 with notes := btInsert l (noteInfo base nn) a1.notes } := by
      unfold addRefId
      rw [hk1]
      simp [noteInfo, nn, hσ.ends.index]
    refine ⟨{ σ with linkIndex := B.foot.last + 2, aux := { a1 with notes := btInsert l (noteInfo base nn) a1.notes } },
      ?_, ?_, ⟨rfl, Nat.le_refl _, fun _ _ => ⟨rfl, rfl⟩, fun h => h, rfl⟩, rfl, rfl⟩
    · intro gap w
      obtain ⟨g1, g2, g3⟩ := hgrp gap w
      unfold fNoteRef
      rw [g1, g2, g3, parseAttrs_nil]
      simp only [pure_bind]
      refine Runs.bind (a := natStr σ.aux.noteIndex) (σ' := { σ with aux := a1 }) ?_ ?_
      · unfold noteSeq
        refine Runs.bind (runs_getSt σ) ?_
        rw [hk]
        exact Runs.bind (runs_addRef _ _) (Runs.pure _ _)
      refine Runs.bind (runs_incLink _) ?_
      refine Runs.bind (runs_getSt _) ?_
      simp only [hk1, hσ.link, List.isEmpty_nil, if_true]
      refine Runs.bind (Runs.bind (runs_incLink _) (Runs.pure _ _)) ?_
      simp only [linkId hp]
      refine Runs.bind (runs_addRef _ _) ?_
      simp only [hsup]
      rw [hadd, enRefHtml_eq]
      simp only [enAtt, enIdAtt, enHref, enNum, hB]
      refine Runs.pure' ?_
      simp [openTagA, closeTag, Spec.attr, Spec.hrefAttr, Spec.idAttr, hj, hσ.ends.index]
    · unfold Spec.Book.refer
      rw [hB]
      refine ⟨hσ.look, rfl, ?_⟩
      refine hσ.ends.add hB (n := nn) rfl ?_ ?_ rfl rfl
      · intro m
        simp only [a1]
        rw [btInsert_lookup, btInsert_lookup]
        by_cases hm : l = m
        · rw [if_pos hm, if_pos hm]
        · rw [if_neg hm, if_neg hm, if_neg hm]
      · exact btInsert_sorted _ _ (btInsert_sorted _ _ hσ.ends.sorted)

/-! ## The text after the replacement -/

/-- The tags of a reference and the texts after them. -/
def enRefPairs (base : Str) (B : Spec.Book) (r : Str × Str) : List (Str × Str) :=
  [(openTagA t!"sup" [], []), (openTagA t!"a" (enAtt base B r.1), []), (openTagA t!"span" (enIdAtt base B), natStr (enNum B r.1)),
    (closeTag t!"span", []), (closeTag t!"a", []), (closeTag t!"sup", r.2)]

def enPairs (base : Str) : Spec.Book → List (Str × Str) → List (Str × Str)
  | _, [] => []
  | B, r :: rs => enRefPairs base B r ++ enPairs base (B.refer r.1) rs

theorem enPairs_cons (base : Str) (B : Spec.Book) (w : Str) (r : Str × Str) (rs : List (Str × Str)) :
    weave w (enPairs base B (r :: rs)) = w ++ (B.refHtml base r.1 ++ weave r.2 (enPairs base (B.refer r.1) rs)) := by
  rw [enRefHtml_eq]
  simp [enPairs, enRefPairs, weave]

def enNotes (B : Spec.Book) (rs : List (Str × Str)) : Spec.Book := rs.foldl (fun B r => B.refer r.1) B

theorem en_scan {C : Ctx} {base : Str} (hU : UniOk C.U) (hp : C.cfg.linkPrefix = base ++ t!"-") {n : Str}
    (hn : ∀ c ∈ n, c = '\n') : ∀ {rs : List (Str × Str)} {w pre : Str} {B : Spec.Book} {σ : PState}, EnOk C.U w rs → BookState base B σ →
    ∃ σ', ScanP C NOTEREF_RE (fNoteRef C) pre (w ++ (enRefs rs ++ n)) σ (weave w (enPairs base B rs) ++ n) σ' ∧
      BookState base (enNotes B rs) σ' ∧ Grows C.cfg.uid σ σ' ∧ σ'.refIndex = σ.refIndex ∧ σ'.aux.olStarts = σ.aux.olStarts
  | [], w, pre, B, σ, h, hσ => by
    refine ⟨σ, ?_, hσ, ⟨rfl, Nat.le_refl _, .refl _ _, id, rfl⟩, rfl, rfl⟩
    have h1 : '[' ∉ w := prose_nochar h.lead.1 (by decide) (by decide)
    have h2 : '[' ∉ n := fun hm => by have := hn _ hm; revert this; decide
    have h3 := ScanP.of_skips (C := C) (f := fNoteRef C) (σ := σ) (σ' := σ) (out := []) (en_skips (U := C.U) (w := w ++ n) (by simp [h1, h2]) pre []) .nil
    simpa [enPairs, weave_nil, enRefs] using h3
  | r :: rs, w, pre, B, σ, h, hσ => by
    have h1 : '[' ∉ w := prose_nochar h.lead.1 (by decide) (by decide)
    have h2 := h.labels r (by simp)
    obtain ⟨σ1, g1, g2, g3, g4, g5⟩ := fNoteRef_runs (C := C) hU hp hσ (l := r.1)
    obtain ⟨σ2, k1, k2, k3, k4, k5⟩ := en_scan hU hp hn (pre := ('[' :: '#' :: (r.1 ++ t!"]")).reverse ++ (w.reverse ++ pre)) h.tail g2
    refine ⟨σ2, ?_, k2, g3.trans k3, k4.trans g4, k5.trans g5⟩
    rw [enRefs_cons, enPairs_cons]
    have := ScanP.hit (en_hit (U := C.U) (pre := w.reverse ++ pre) h2) (by simp) (fun gap => g1 gap _) k1
    have := ScanP.of_skips (en_skips h1 pre _) this
    simpa using this

theorem enAtt_chars {base : Str} (hb : Spec.PlainBase base) (B : Spec.Book) (l : Str) : ∀ c ∈ enAtt base B l, c ∈ attChars := by
  unfold enAtt enHref
  cases B.ends.find l with
  | some n =>
    exact fnAttr_chars (n := Spec.hrefAttr) (v := t!"#note" ++ []) (by decide +kernel) (by decide +kernel)
  | none => exact fnAttr_chars (by decide +kernel) (fn_chars hb t!"#note" (by decide +kernel) _)

theorem enIdAtt_chars {base : Str} (hb : Spec.PlainBase base) (B : Spec.Book) : ∀ c ∈ enIdAtt base B, c ∈ attChars :=
  fnAttr_chars (by decide +kernel) (fn_chars hb t!"noteref" (by decide +kernel) _)

theorem span_open_ok {U : Uni} (hU : UniOk U) {att : Str} (h : ∀ c ∈ att, c ∈ attChars) :
    SplitTag U (openTagA t!"span" att) ∧ Inner (openTagA t!"span" att) := by
  have h1 : '>' ∉ att := attChars_not (by decide +kernel) h
  have h2 : '<' ∉ att := attChars_not (by decide +kernel) h
  have h3 : '\n' ∉ att := attChars_not (by decide +kernel) h
  have hw : evalSet U false splitStart 's' = true := by
    have k1 : U.isWord 's' = true := by rw [hU.word 's' (by decide)]; decide
    simp [evalSet, splitStart, Item.eval, UC.eval, k1]
  exact ⟨⟨'s', 'p' :: 'a' :: 'n' :: att, by simp [openTagA], hw, by simp [h1], by simp [h3]⟩,
      by simp [openTagA, h3], brFree_open (brFree_decide (by decide)) h2, free_open (Free.of (by decide)) rfl h2⟩

theorem span_close_ok {U : Uni} : SplitTag U (closeTag t!"span") ∧ Inner (closeTag t!"span") := by
  have hw : evalSet U false splitStart '/' = true := by simp [evalSet, splitStart, Item.eval]
  exact ⟨⟨'/', t!"span", rfl, hw, by decide, by decide⟩, by decide, brFree_decide (by decide), Free.of (by decide)⟩

theorem natStr_decimal (n : Nat) : ∀ c ∈ natStr n, Spec.isDecimal c = true := by
  intro c hc
  rw [← natStr_numeral] at hc
  have := numeral_mem hc
  exact (by decide +kernel : ∀ c ∈ t!"0123456789", Spec.isDecimal c = true) c this

theorem en_woven {C : Ctx} {base : Str} (hU : UniOk C.U) (hb : Spec.PlainBase base) : ∀ {rs : List (Str × Str)} {w : Str} {B : Spec.Book}, EnOk C.U w rs →
    WovenOk C w (enPairs base B rs)
  | [], w, B, h => ⟨h.lead, by simp [enPairs], by simp [enPairs]⟩
  | r :: rs, w, B, h => by
    have ih := en_woven (C := C) hU hb (B := B.refer r.1) h.tail
    have key : ∀ p ∈ enRefPairs base B r, (SplitTag C.U p.1 ∧ Inner p.1) ∧ Spec.Prose C.U.isLu p.2 ∧ ¬ Spec.EndsInSpace p.2 := by
      intro p hp
      simp only [enRefPairs, List.mem_cons, List.not_mem_nil, or_false] at hp
      rcases hp with rfl | rfl | rfl | rfl | rfl | rfl
      · exact ⟨open_ok hU (by simp) (by simp), prose_nil _⟩
      · exact ⟨open_ok hU (by simp) (enAtt_chars hb _ _), prose_nil _⟩
      · exact ⟨span_open_ok hU (enIdAtt_chars hb _), prose_label hU (natStr_decimal _)⟩
      · exact ⟨span_close_ok, prose_nil _⟩
      · exact ⟨close_ok (by simp), prose_nil _⟩
      · exact ⟨close_ok (by simp), h.texts r (by simp)⟩
    refine ⟨h.lead, ?_, ?_⟩ <;> intro p hp <;> simp only [enPairs, List.mem_append] at hp <;> rcases hp with hp | hp
    · exact (key p hp).1
    · exact ih.tags p hp
    · exact (key p hp).2
    · exact ih.texts p hp

/-- Characters that do not occur in the output. -/
theorem en_nochar {U : Uni} {base : Str} (hb : Spec.PlainBase base) {d : Char} (h1 : d ∉ linesA.ascii) (h2 : d.toNat < 128) (h3 : d ∉ attChars) (h4 : d ∉ t!"<>/") :
    ∀ {rs : List (Str × Str)} {w : Str} {B : Spec.Book}, EnOk U w rs → d ∉ weave w (enPairs base B rs)
  | [], w, B, h => by rw [enPairs, weave_nil]; exact prose_nochar h.lead.1 h1 h2
  | r :: rs, w, B, h => by
    rw [enPairs_cons, enRefHtml_eq]
    have ih := en_nochar (B := B.refer r.1) hb h1 h2 h3 h4 h.tail
    have k1 := attChars_not h3 (enAtt_chars hb B r.1)
    have k2 := attChars_not h3 (enIdAtt_chars hb B)
    have k3 : d ∉ w := prose_nochar h.lead.1 h1 h2
    have k4 : d ∉ natStr (enNum B r.1) := fun hm => by
      rcases digA_of (natStr_decimal _ d hm) with hd | hd
      · exact h1 ((by decide +kernel : ∀ c ∈ digA.ascii, c ∈ linesA.ascii) d hd)
      · exact absurd hd.1 (by decide)
    have k5 : d ∉ asciiAlnum := fun hm => h3 ((by decide +kernel : ∀ c ∈ asciiAlnum, c ∈ attChars) d hm)
    have k7 : d ≠ 's' ∧ d ≠ 'u' ∧ d ≠ 'p' ∧ d ≠ 'a' ∧ d ≠ 'n' := by
      refine ⟨?_, ?_, ?_, ?_, ?_⟩ <;> rintro rfl <;> exact k5 (by decide +kernel)
    simp only [List.mem_cons, List.not_mem_nil, or_false, not_or] at h4
    simp [openTagA, closeTag, k1, k2, k3, k4, ih, k7, h4]

/-! ## The text is not a whole element -/

/-- Text with the elements of references. -/
def enOutM : Auto := [
  (true, [(inkA, 1)]),
  (true, [(linesA, 1), (oneA '<', 2)]),
  (false, [(oneA 's', 3), (oneA 'a', 7), (oneA '/', 6)]),
  (false, [(oneA 'u', 4), (oneA 'p', 8)]),
  (false, [(oneA 'p', 7)]),
  (false, [(fnAttA, 5), (oneA '>', 1)]),
  (false, [(oneA 'a', 7), (oneA 's', 3)]),
  (false, [(oneA ' ', 5), (oneA '>', 1)]),
  (false, [(oneA 'a', 9)]),
  (false, [(oneA 'n', 7)])]

set_option maxRecDepth 100000 in
theorem enOutM_ok : enOutM.wf = true ∧ enOutM.avoids UNWRAPPABLE_RE = true ∧ enOutM.avoids DIVIDER_RE = true ∧ enOutM.avoids WRAPPED_RE = true := by
  decide +kernel

theorem enOutM_text {rest : Str} (hr : enOutM.Run 1 rest) {w : Str} (h : linesA.Over w) : enOutM.Run 1 (w ++ rest) :=
  run_loop (by simp [enOutM, Auto.step]) hr h

theorem enOutM_word {tag rest : Str} (ht : tag ∈ [t!"sup", t!"a", t!"span"]) {q : Nat} (hq : q = 2 ∨ q = 6) (hr : enOutM.Run 7 rest) : enOutM.Run q (tag ++ rest) := by
  have k : ∀ q c q', (oneA c, q') ∈ enOutM.step q → ∀ t, enOutM.Run q' t → enOutM.Run q (c :: t) := fun q c q' h t ht => run_one h ht
  have hs : (oneA 's', 3) ∈ enOutM.step q ∧ (oneA 'a', 7) ∈ enOutM.step q := by
    rcases hq with rfl | rfl <;> simp [enOutM, Auto.step]
  simp only [List.mem_cons, List.not_mem_nil, or_false] at ht
  rcases ht with rfl | rfl | rfl
  · exact k q 's' 3 hs.1 _ (k 3 'u' 4 (by simp [enOutM, Auto.step]) _ (k 4 'p' 7 (by simp [enOutM, Auto.step]) _ hr))
  · exact k q 'a' 7 hs.2 _ hr
  · exact k q 's' 3 hs.1 _ (k 3 'p' 8 (by simp [enOutM, Auto.step]) _ (k 8 'a' 9 (by simp [enOutM, Auto.step]) _ (k 9 'n' 7 (by simp [enOutM, Auto.step]) _ hr)))

theorem enOutM_open {tag att rest : Str} (ht : tag ∈ [t!"sup", t!"a", t!"span"]) (h : ∀ c ∈ att, c ∈ attChars) (h0 : att = [] ∨ ∃ r, att = ' ' :: r)
    (hr : enOutM.Run 1 rest) : enOutM.Run 1 (openTagA tag att ++ rest) := by
  have h5 : enOutM.Run 5 ('>' :: rest) := run_one (q' := 1) (by simp [enOutM, Auto.step]) hr
  have h1 : enOutM.Run 7 (att ++ '>' :: rest) := by
    rcases h0 with rfl | ⟨r, rfl⟩
    · exact run_one (q' := 1) (by simp [enOutM, Auto.step]) hr
    · exact run_one (q' := 5) (by simp [enOutM, Auto.step]) (run_loop (A := fnAttA) (by simp [enOutM, Auto.step]) h5 (fun c hc => .inl (h c (by simp [hc]))))
  rw [show openTagA tag att ++ rest = '<' :: (tag ++ (att ++ '>' :: rest)) by simp [openTagA]]
  exact run_one (q' := 2) (by simp [enOutM, Auto.step]) (enOutM_word ht (.inl rfl) h1)

theorem enOutM_close {tag rest : Str} (ht : tag ∈ [t!"sup", t!"a", t!"span"]) (hr : enOutM.Run 1 rest) :
    enOutM.Run 1 (closeTag tag ++ rest) := by
  have h1 : enOutM.Run 7 ('>' :: rest) := run_one (q' := 1) (by simp [enOutM, Auto.step]) hr
  rw [show closeTag tag ++ rest = '<' :: '/' :: (tag ++ ('>' :: rest)) by simp [closeTag]]
  exact run_one (q' := 2) (by simp [enOutM, Auto.step]) (run_one (q' := 6) (by simp [enOutM, Auto.step]) (enOutM_word ht (.inr rfl) h1))

theorem enOutM_run {U : Uni} {base : Str} (hb : Spec.PlainBase base) : ∀ {rs : List (Str × Str)} {w : Str} {B : Spec.Book},
    EnOk U w rs → enOutM.Run 1 (weave w (enPairs base B rs))
  | [], w, B, h => by
    rw [enPairs, weave_nil]
    have := enOutM_text (rest := []) (by rfl) (prose_over h.lead.1)
    rwa [List.append_nil] at this
  | r :: rs, w, B, h => by
    rw [enPairs_cons, enRefHtml_eq]
    have ih := enOutM_run (B := B.refer r.1) hb h.tail
    refine enOutM_text ?_ (prose_over h.lead.1)
    simp only [List.append_assoc]
    refine enOutM_open (by simp) (by simp) (.inl rfl) (enOutM_open (by simp) (enAtt_chars hb _ _) (.inr ⟨_, rfl⟩)
      (enOutM_open (by simp) (enIdAtt_chars hb _) (.inr ⟨_, rfl⟩) (enOutM_text ?_ ?_)))
    · exact enOutM_close (by simp) (enOutM_close (by simp) (enOutM_close (by simp) ih))
    · intro c hc
      rcases digA_of (natStr_decimal _ c hc) with hd | hd
      · exact .inl ((by decide +kernel : ∀ c ∈ digA.ascii, c ∈ linesA.ascii) c hd)
      · exact absurd hd.1 (by decide)

theorem hasRawText_en {U : Uni} (hU : UniOk U) {base : Str} (hb : Spec.PlainBase base) {rs : List (Str × Str)} {w : Str} {B : Spec.Book}
    (h : EnOk U w rs) (hw : ∃ c u, w = c :: u ∧ c ≠ ' ' ∧ c ≠ '\n') : hasRawText U (weave w (enPairs base B rs)) = true := by
  have hr : enOutM.Run 0 (weave w (enPairs base B rs)) := by
    obtain ⟨c, u, rfl, h1, h2⟩ := hw
    have := enOutM_run hb (B := B) h
    have hc : inkA.Mem c := by
      rcases ink_or_gap (prose_over h.lead.1 c (by simp)) with hc | ⟨-, rfl | rfl⟩
      · exact hc
      · exact absurd rfl h1
      · exact absurd rfl h2
    have key : ∀ {t : Str}, enOutM.Run 1 (c :: t) → enOutM.Run 0 (c :: t) := by
      rintro t ⟨e, he, hm, hr⟩
      refine ⟨(inkA, 1), by simp [enOutM, Auto.step], hc, ?_⟩
      simp [enOutM, Auto.step] at he
      rcases he with rfl | rfl
      · exact hr
      · exfalso
        have : c = '<' := by
          rcases hm with hm | hm
          · simpa [oneA] using hm
          · exact absurd hm.1 (by simp [oneA])
        subst this
        rcases hc with hc | hc
        · revert hc; decide +kernel
        · exact absurd hc.2.1 (by decide)
    cases hps : enPairs base B rs with
    | nil => rw [hps, weave_nil] at this; rw [weave_nil]; exact key this
    | cons p ps => rw [hps] at this; exact key this
  obtain ⟨h1, h2, h3, h4⟩ := enOutM_ok
  unfold hasRawText
  rw [Re.isMatch_none (Auto.search_none hU h1 h2 (by decide) hr), Re.isMatch_none (Auto.search_none hU h1 h3 (by decide) hr),
    Re.captures_none (Auto.search_none hU h1 h4 (by decide) hr)]
  rfl

/-! ## `graf` -/

theorem late_ne_noteref : ∀ r ∈ RCLIST_RE :: LISTS_RE :: FOOTNOTE_RE :: spanPatterns, r ≠ NOTEREF_RE := by decide +kernel

theorem graf_en {C : Ctx} {base : Str} (D : DocCtx C base) (hp : C.cfg.linkPrefix = base ++ t!"-") {w : Str}
    {rs : List (Str × Str)} {B : Spec.Book} {σ : PState} (h : EnOk C.U w rs) (hw : w ≠ []) (hσ : BookState base B σ) :
    ∃ σ', Body C (w ++ enRefs rs) (weave w (enPairs base B rs)) 0 σ σ' (brk C.cfg.brTag (weave w (enPairs base B rs))) ∧
      BookState base (enNotes B rs) σ' ∧ σ'.aux.olStarts = σ.aux.olStarts := by
  have hq := enQuiet D.uni h hw
  have hps := en_woven (C := C) D.uni D.plain h (B := B)
  have hcol : ':' ∉ w ++ enRefs rs := by
    have : ∀ {rs : List (Str × Str)} {w : Str}, EnOk C.U w rs → ':' ∉ w ++ enRefs rs := by
      intro rs
      induction rs with
      | nil => intro w h; simp [enRefs]; exact prose_nochar h.lead.1 (by decide) (by decide)
      | cons r rs ih =>
        intro w h
        have h1 := ih h.tail
        have h2 : ':' ∉ w := prose_nochar h.lead.1 (by decide) (by decide)
        have h3 : ':' ∉ r.1 := label_not (by decide +kernel) (h.labels r (by simp))
        rw [enRefs_cons]
        simp at h1
        simp [h1, h2, h3]
    exact this h
  have k1 : ':' ∉ weave w (enPairs base B rs) := en_nochar D.plain (by decide) (by decide) (by decide +kernel) (by decide) h
  have hf := D.fuel
  obtain ⟨f, hf'⟩ : ∃ f, C.fuel = f + 1 := ⟨C.fuel - 1, by omega⟩
  have hnl : tableEnd C = [] ∨ tableEnd C = t!"\n\n" := by unfold tableEnd; split <;> simp
  obtain ⟨σ', h1, h2, h3, h4, h5⟩ := en_scan (C := C) D.uni hp (tableEnd_nl C) (pre := []) h hσ
  refine ⟨σ', ⟨⟨woven_weave hps, lined_weave hps, ?_, h3, by omega, ?_⟩, ?_⟩, h2, h5⟩
  · cases w with
    | nil => exact absurd rfl hw
    | cons c w => intro e; simp [weave] at e
  · intro τ _ _
    have := (Rep.nil (uid := C.cfg.uid) (σ := τ)).text (w := brk C.cfg.brTag (weave w (enPairs base B rs))) (brk_nocolon (brTag_nocolon _) k1)
    simpa using this
  rw [hf']
  have hlate : ∀ r ∈ latePatterns, r ≠ NOTEREF_RE → r.search C.U [] ((w ++ enRefs rs) ++ tableEnd C) = none := hq.late _ hnl
  refine graf_split (runs_early (by omega) hq.early ?_ σ) ?_
  · refine containsStr_false_of_mem (c := ':') (by simp [D.colon]) hcol
  unfold grafLate
  refine (runs_table hq.table σ).bind ?_
  refine Runs.bind (a := (w ++ enRefs rs) ++ tableEnd C) (σ' := σ) ((Leaves.unless fun _ => Leaves.replaceP (hlate _ (by simp [latePatterns]) (late_ne_noteref _ (by simp)))).runs σ) ?_
  refine Runs.bind (a := (w ++ enRefs rs) ++ tableEnd C) (σ' := σ) ((Leaves.unless fun _ => Leaves.replaceP (hlate _ (by simp [latePatterns]) (late_ne_noteref _ (by simp)))).runs σ) ?_
  refine Runs.bind (a := (w ++ enRefs rs) ++ tableEnd C) (σ' := σ) ((Leaves.span (fun r hr => hlate r (by simp [latePatterns, hr]) (late_ne_noteref r (by simp [hr])))).runs σ) ?_
  refine Runs.bind (a := (w ++ enRefs rs) ++ tableEnd C) (σ' := σ) (Runs.none (hlate _ (by simp [latePatterns]) (late_ne_noteref _ (by simp))) σ) ?_
  refine Runs.bind (a := weave w (enPairs base B rs) ++ tableEnd C) (σ' := σ') ?_ ?_
  · have hrun := ScanP.runs NOTEREF_nonnull (fun m => rfl) h1
    unfold noteRef
    simpa using hrun
  rw [glyphs_woven D.uni hps (tableEnd_nl C), trimEndP_of_last (by simpa using weave_last hps)]
  exact Runs.pure _ _

end Rustextile
