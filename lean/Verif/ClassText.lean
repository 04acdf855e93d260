import Verif.SpanAtt
import Verif.SpecClass
import Verif.CapDoc
import Verif.EndText

/-!
# Texts with classes

What `graf` does with a text whose marked parts have classes.
-/

namespace Rustextile

open Prog

/-! ## The text -/

def initA : Alpha := ⟨asciiAlnum ++ t!",/$", true⟩
def mkA : Alpha := ⟨t!"*?-_%+~^", false⟩
def othA : Alpha := ⟨t!"?-_%+~^", false⟩
def grpA : Alpha := ⟨asciiAlnum ++ t!"# ", false⟩

def clM : Auto := [
  (true, [(inkA, 1), (oneA ' ', 2), (oneA '\n', 0), (oneA '*', 3), (othA, 4)]),
  (true, [(inkA, 1), (oneA ' ', 2), (oneA '\n', 0)]),
  (true, [(inkA, 1), (oneA ' ', 2), (oneA '\n', 0), (oneA '*', 3), (othA, 4)]),
  (false, [(oneA '*', 3), (oneA '(', 5), (initA, 7)]),
  (false, [(othA, 4), (oneA '(', 8), (inkA, 7)]),
  (false, [(grpA, 5), (oneA ')', 6)]),
  (false, [(initA, 7)]),
  (false, [(inkA, 7), (oneA ' ', 7), (mkA, 10)]),
  (false, [(grpA, 8), (oneA ')', 9)]),
  (false, [(inkA, 7)]),
  (true, [(mkA, 10), (oneA ' ', 2), (oneA '\n', 0), (⟨t!".,", false⟩, 1)])]

set_option maxRecDepth 100000 in
theorem clM_ok : clM.wf = true ∧ earlyPatterns.all (clM.avoids ·) = true ∧ clM.avoids TABLE_RE = true ∧
    clM.avoids RCLIST_RE = true ∧ clM.avoids LISTS_RE = true ∧ clM.avoids NOTEDEF_RE = true ∧ clM.avoids DIVIDER_RE = true := by
  decide +kernel

theorem clM_text {rest : Str} (h0 : ∀ q, q = 0 ∨ q = 2 → clM.Run q rest) : ∀ {w : Str} {q : Nat}, q = 0 ∨ q = 1 ∨ q = 2 → linesA.Over w →
    (clM.Run 1 rest ∨ Spec.EndsInSpace w ∨ (w = [] ∧ q ≠ 1)) → clM.Run q (w ++ rest)
  | [], q, hq, _, h => by
    rcases hq with rfl | rfl | rfl
    · exact h0 _ (.inl rfl)
    · rcases h with h | ⟨u, x, e, -⟩ | h
      · exact h
      · simp at e
      · exact absurd rfl h.2
    · exact h0 _ (.inr rfl)
  | c :: w, q, hq, hA, h => by
    have hA' : linesA.Over w := fun x hx => hA x (by simp [hx])
    have hq' : (inkA, 1) ∈ clM.step q ∧ (oneA ' ', 2) ∈ clM.step q ∧ (oneA '\n', 0) ∈ clM.step q := by
      rcases hq with rfl | rfl | rfl <;> simp [clM, Auto.step]
    have hs : clM.Run 1 rest ∨ Spec.EndsInSpace w ∨ (w = [] ∧ (c = ' ' ∨ c = '\n')) := by
      rcases h with h | ⟨u, x, e, hx⟩ | h
      · exact .inl h
      · cases u with
        | nil => simp at e; obtain ⟨rfl, rfl⟩ := e; exact .inr (.inr ⟨rfl, hx⟩)
        | cons y u => simp at e; exact .inr (.inl ⟨u, x, e.2, hx⟩)
      · exact absurd h.1 (by simp)
    rcases ink_or_gap (hA c (by simp)) with hi | ⟨-, hc⟩
    · refine ⟨_, hq'.1, hi, clM_text h0 (.inr (.inl rfl)) hA' ?_⟩
      rcases hs with h | h | ⟨-, h⟩
      · exact .inl h
      · exact .inr (.inl h)
      · rcases h with rfl | rfl <;> exact absurd hi (Alpha.not_mem (by decide) (by decide))
    · have hs' : clM.Run 1 rest ∨ Spec.EndsInSpace w ∨ w = [] := by
        rcases hs with h | h | h
        · exact .inl h
        · exact .inr (.inl h)
        · exact .inr (.inr h.1)
      rcases hc with rfl | rfl
      · exact ⟨_, hq'.2.1, oneA_mem _, clM_text h0 (.inr (.inr rfl)) hA' (hs'.imp id (Or.imp id (fun e => ⟨e, by simp⟩)))⟩
      · exact ⟨_, hq'.2.2, oneA_mem _, clM_text h0 (.inl rfl) hA' (hs'.imp id (Or.imp id (fun e => ⟨e, by simp⟩)))⟩

theorem clM_newlines : ∀ {n : Str} {q : Nat}, (∀ c ∈ n, c = '\n') → q ∈ [0, 1, 2, 10] → clM.Run q n
  | [], q, _, h => by simp at h; rcases h with rfl | rfl | rfl | rfl <;> rfl
  | c :: n, q, hn, h => by
    have hc := hn c (by simp)
    subst hc
    refine ⟨(oneA '\n', 0), ?_, oneA_mem _, clM_newlines (fun x hx => hn x (by simp [hx])) (by simp)⟩
    simp at h
    rcases h with rfl | rfl | rfl | rfl <;> simp [clM, Auto.step]

/-- The text after a marked part. -/
theorem clM_gap {lite : Bool} {rest g : Str} (h0 : ∀ q, q = 0 ∨ q = 2 → clM.Run q rest) (hA : linesA.Over g) (hf : Spec.CanFollow lite g)
    (h : (clM.Run 1 rest ∧ clM.Run 10 rest) ∨ Spec.EndsInSpace g) : clM.Run 10 (g ++ rest) := by
  cases g with
  | nil =>
    rcases h with h | ⟨u, x, e, -⟩
    · exact h.2
    · simp at e
  | cons c g =>
    have hA' : linesA.Over g := fun x hx => hA x (by simp [hx])
    have hs : clM.Run 1 rest ∨ Spec.EndsInSpace g ∨ (g = [] ∧ (c = ' ' ∨ c = '\n')) := by
      rcases h with h | ⟨u, x, e, hx⟩
      · exact .inl h.1
      · cases u with
        | nil => simp at e; obtain ⟨rfl, rfl⟩ := e; exact .inr (.inr ⟨rfl, hx⟩)
        | cons y u => simp at e; exact .inr (.inl ⟨u, x, e.2, hx⟩)
    have hc : c = ' ' ∨ c = '\n' ∨ c = '.' ∨ c = ',' := by
      cases g with
      | nil => rcases hf with h | h | h <;> simp_all
      | cons d g => rcases hf with h | h | h <;> simp_all
    have hs' : clM.Run 1 rest ∨ Spec.EndsInSpace g ∨ g = [] := hs.imp id (Or.imp id And.left)
    rcases hc with rfl | rfl | hc
    · exact ⟨(oneA ' ', 2), by simp [clM, Auto.step], oneA_mem _, clM_text h0 (.inr (.inr rfl)) hA' (hs'.imp id (Or.imp id (fun e => ⟨e, by simp⟩)))⟩
    · exact ⟨(oneA '\n', 0), by simp [clM, Auto.step], oneA_mem _, clM_text h0 (.inl rfl) hA' (hs'.imp id (Or.imp id (fun e => ⟨e, by simp⟩)))⟩
    · refine ⟨(⟨t!".,", false⟩, 1), by simp [clM, Auto.step], .inl (by rcases hc with rfl | rfl <;> simp), clM_text h0 (.inr (.inl rfl)) hA' ?_⟩
      rcases hs with h | h | ⟨-, h⟩
      · exact .inl h
      · exact .inr (.inl h)
      · rcases h with rfl | rfl <;> simp at hc

theorem clM_inner {rest : Str} (hr : clM.Run 7 rest) : ∀ {w : Str}, linesA.Over w → '\n' ∉ w → clM.Run 7 (w ++ rest)
  | [], _, _ => hr
  | c :: w, hA, hn => by
    simp at hn
    have ih := clM_inner hr (w := w) (fun x hx => hA x (by simp [hx])) hn.2
    rcases ink_or_gap (hA c (by simp)) with h | ⟨-, rfl | rfl⟩
    · exact ⟨(inkA, 7), by simp [clM, Auto.step], h, ih⟩
    · exact ⟨(oneA ' ', 7), by simp [clM, Auto.step], oneA_mem _, ih⟩
    · exact absurd rfl hn.1

theorem clM_group {q : Nat} (hq : (grpA, q) ∈ clM.step q) {rest : Str} (hr : clM.Run q rest) : ∀ {w : Str}, (∀ c ∈ w, c ∈ grpA.ascii) → clM.Run q (w ++ rest)
  | [], _ => hr
  | c :: w, h => ⟨(grpA, q), hq, .inl (h c (by simp)), clM_group hq hr (fun x hx => h x (by simp [hx]))⟩

/-- The attributes of a marked part. -/
theorem atts_form {p : Spec.ClassPart} (h : ∀ n i, p.group = some (n, i) → Spec.GroupOk n i) :
    p.atts.source = [] ∨ ∃ x, p.atts.source = t!"(" ++ (x ++ t!")") ∧ ∀ c ∈ x, c ∈ grpA.ascii := by
  have hm : ∀ {c : Char}, Spec.isLetterOrDigit c = true → c ∈ grpA.ascii := fun hc => by
    have := label_mem hc
    simp only [grpA, List.mem_append]; exact .inl this
  cases hg : p.group with
  | none => left; simp [Spec.ClassPart.atts, hg, Spec.Atts.source, Spec.Atts.marks]
  | some q =>
    obtain ⟨n, i⟩ := q
    obtain ⟨-, h2, h3⟩ := h n i hg
    right
    have hn : ∀ c ∈ n, c ∈ grpA.ascii := by
      intro c hc
      rcases h2 c hc with h | rfl
      · exact hm h
      · decide +kernel
    cases i with
    | none => exact ⟨n, by simp [Spec.ClassPart.atts, hg, Spec.Atts.source, Spec.Atts.marks, Spec.Group.source], hn⟩
    | some j =>
      refine ⟨n ++ ('#' :: j), by simp [Spec.ClassPart.atts, hg, Spec.Atts.source, Spec.Atts.marks, Spec.Group.source], ?_⟩
      intro c hc
      simp only [List.mem_append, List.mem_cons] at hc
      rcases hc with hc | rfl | hc
      · exact hn c hc
      · decide +kernel
      · exact hm ((h3 j rfl).2 c hc)

theorem name_of_label {c : Char} (h : Spec.isLetterOrDigit c = true) : Spec.NameChar c := by
  simp [Spec.isLetterOrDigit, Spec.isLetter, Spec.isDecimal] at h
  unfold Spec.NameChar
  simp only [Char.le_def, UInt32.le_iff_toNat_le]
  have : c.toNat = c.val.toNat := rfl
  simp only [this] at h
  rcases h with (h | h) | h
  · right; left; exact h
  · left; exact h
  · right; right; left; exact h

theorem atts_simple {p : Spec.ClassPart} (h : ∀ n i, p.group = some (n, i) → Spec.GroupOk n i) : Simple p.atts := by
  have hm : ∀ {c : Char}, c ∈ grpA.ascii → c ∈ asciiAlnum ∨ c ∈ t!"()# " := by
    intro c hc
    simp only [grpA, List.mem_append] at hc
    rcases hc with h | h
    · exact .inl h
    · right; revert c; decide
  have hf := atts_form h
  cases hg : p.group with
  | none => simp [Simple, Spec.ClassPart.atts, hg]
  | some q =>
    obtain ⟨n, i⟩ := q
    obtain ⟨h1, h2, h3⟩ := h n i hg
    refine ⟨rfl, rfl, rfl, by simp [Spec.ClassPart.atts, hg], ?_⟩
    intro g hg'
    have e : g = .classes n i := by simpa [Spec.ClassPart.atts, hg] using hg'
    have es : p.atts.source = g.source := by simp [Spec.ClassPart.atts, hg, Spec.Atts.source, Spec.Atts.marks, e]
    rw [es] at hf
    subst e
    refine ⟨⟨fun c hc => (h2 c hc).imp name_of_label id, h1, fun j hj => ⟨(h3 j hj).1, fun c hc => .inl (name_of_label ((h3 j hj).2 c hc))⟩⟩, rfl, ?_⟩
    intro c hc
    rcases hf with e | ⟨x, e, hx⟩
    · rw [e] at hc; cases hc
    · rw [e] at hc
      simp only [List.mem_append, List.mem_cons, List.not_mem_nil, or_false] at hc
      rcases hc with rfl | hc | rfl
      · right; decide
      · exact hm (hx c hc)
      · right; decide

/-- What is needed of a marked part. -/
structure ClPart (U : Uni) (lite : Bool) (p : Spec.ClassPart) : Prop where
  inl : (Spec.Inline.marked p.marker p.text).Ok U.isLu lite p.after
  after : Spec.Prose U.isLu p.after
  group : ∀ n i, p.group = some (n, i) → Spec.GroupOk n i

theorem ink_init {c : Char} (h : inkA.Mem c) (hd : c ≠ '.') : initA.Mem c := by
  rcases h with h | h
  · left
    have key : ∀ c ∈ inkA.ascii, c ≠ '.' → c ∈ initA.ascii := by decide +kernel
    exact key c h hd
  · exact .inr h

theorem clM_part {U : Uni} {lite : Bool} {p : Spec.ClassPart} (h : ClPart U lite p) {rest : Str} (hr : clM.Run 10 rest) {q : Nat} (hq : q = 0 ∨ q = 2) :
    clM.Run q (p.source ++ rest) := by
  obtain ⟨hm, hw, ⟨c, u, hc, hc1, hc2⟩, -, -⟩ := h.inl
  have hcl : ∀ m ∈ Spec.inlineElements.map (·.1), clM.walk 7 m = some 10 := by decide +kernel
  have hop : ∀ m ∈ Spec.inlineElements.map (·.1), ∀ q ∈ [0, 2], clM.walk q m = some (if m.head? = some '*' then 3 else 4) := by decide +kernel
  have hA : linesA.Over p.text := fun x hx => linesA_iff.2 (.inl (plainA_iff.2 (hw.chars x hx)))
  have hn : '\n' ∉ p.text := fun hx => absurd (hw.chars _ hx) (by decide)
  rw [hc] at hA hn
  simp at hn
  have hink : inkA.Mem c := by
    rcases ink_or_gap (hA c (by simp)) with h | ⟨-, h | h⟩
    · exact h
    · exact absurd h hc1
    · exact absurd h.symm hn.1
  have h7 : clM.Run 7 (u ++ (p.marker ++ rest)) := clM_inner (Auto.walk_run (hcl _ hm) hr) (fun x hx => hA x (by simp [hx])) hn.2
  have e : p.source ++ rest = p.marker ++ (p.atts.source ++ (c :: (u ++ (p.marker ++ rest)))) := by
    simp [Spec.ClassPart.source, hc]
  rw [e]
  refine Auto.walk_run (hop _ hm q (by simpa using hq)) ?_
  split
  · rename_i hs
    have hi : initA.Mem c := ink_init hink (fun e => hc2 e hs)
    rcases atts_form h.group with e | ⟨x, e, hx⟩
    · rw [e]
      exact ⟨(initA, 7), by simp [clM, Auto.step], hi, h7⟩
    · rw [e]
      have h5 : clM.Run 5 (')' :: c :: (u ++ (p.marker ++ rest))) :=
        ⟨(oneA ')', 6), by simp [clM, Auto.step], oneA_mem _, (initA, 7), by simp [clM, Auto.step], hi, h7⟩
      have h6 : clM.Run 5 (x ++ (')' :: c :: (u ++ (p.marker ++ rest)))) := clM_group (by simp [clM, Auto.step]) h5 hx
      have e' : t!"(" ++ (x ++ t!")") ++ c :: (u ++ (p.marker ++ rest)) = '(' :: (x ++ ')' :: c :: (u ++ (p.marker ++ rest))) := by simp
      rw [e']
      exact ⟨(oneA '(', 5), by simp [clM, Auto.step], oneA_mem _, h6⟩
  · rcases atts_form h.group with e | ⟨x, e, hx⟩
    · rw [e]
      exact ⟨(inkA, 7), by simp [clM, Auto.step], hink, h7⟩
    · rw [e]
      have h5 : clM.Run 8 (')' :: c :: (u ++ (p.marker ++ rest))) :=
        ⟨(oneA ')', 9), by simp [clM, Auto.step], oneA_mem _, (inkA, 7), by simp [clM, Auto.step], hink, h7⟩
      have h6 : clM.Run 8 (x ++ (')' :: c :: (u ++ (p.marker ++ rest)))) := clM_group (by simp [clM, Auto.step]) h5 hx
      have e' : t!"(" ++ (x ++ t!")") ++ c :: (u ++ (p.marker ++ rest)) = '(' :: (x ++ ')' :: c :: (u ++ (p.marker ++ rest))) := by simp
      rw [e']
      exact ⟨(oneA '(', 8), by simp [clM, Auto.step], oneA_mem _, h6⟩

def clForm (f : Spec.ClassPart → Str) (ps : List Spec.ClassPart) : Str := ps.flatMap (fun p => f p ++ p.after)

theorem clForm_cons (f : Spec.ClassPart → Str) (p : Spec.ClassPart) (ps : List Spec.ClassPart) : clForm f (p :: ps) = f p ++ (p.after ++ clForm f ps) := by
  simp [clForm]

theorem clM_parts {U : Uni} {lite : Bool} {n : Str} (hn : ∀ c ∈ n, c = '\n') : ∀ {ps : List Spec.ClassPart}, (∀ p ∈ ps, ClPart U lite p) →
    (∀ p ∈ ps.dropLast, Spec.EndsInSpace p.after) → ∀ q, q = 0 ∨ q = 2 → clM.Run q (clForm Spec.ClassPart.source ps ++ n)
  | [], _, _, q, hq => by
    rw [show clForm Spec.ClassPart.source [] ++ n = n from rfl]
    exact clM_newlines hn (by rcases hq with rfl | rfl <;> simp)
  | p :: ps, h, hb, q, hq => by
    rw [clForm_cons, List.append_assoc, List.append_assoc]
    have hp := h p (by simp)
    have ih := clM_parts hn (ps := ps) (fun x hx => h x (by simp [hx])) (by
      intro x hx
      refine hb x ?_
      rw [List.dropLast_cons_of_ne_nil (by rintro rfl; cases hx)]
      simp [hx])
    refine clM_part hp (clM_gap ih (prose_over hp.after) hp.inl.2.2.2.2 ?_) hq
    by_cases e : ps = []
    · subst e
      left
      exact ⟨clM_newlines hn (by simp), clM_newlines hn (by simp)⟩
    · right
      refine hb p ?_
      rw [List.dropLast_cons_of_ne_nil e]
      simp

theorem cl_parts {U : Uni} {lite : Bool} {t : Spec.ClassText} (h : t.Ok U.isLu lite) : ∀ p ∈ t.parts, ClPart U lite p := by
  intro p hp
  have := h.plain.parts ⟨.marked p.marker p.text, p.after⟩ (List.mem_map_of_mem hp)
  exact ⟨this.inl, this.after, h.groups p hp⟩

theorem cl_between {U : Uni} {lite : Bool} {t : Spec.ClassText} (h : t.Ok U.isLu lite) : ∀ p ∈ t.parts.dropLast, Spec.EndsInSpace p.after := by
  intro p hp
  have := h.plain.between ⟨.marked p.marker p.text, p.after⟩ (by
    simp only [Spec.ClassText.plain]
    rw [← List.map_dropLast]
    exact List.mem_map_of_mem hp)
  exact this

theorem clM_source {U : Uni} {lite : Bool} {t : Spec.ClassText} (h : t.Ok U.isLu lite) {n : Str} (hn : ∀ c ∈ n, c = '\n') :
    clM.Run 0 (t.source ++ n) := by
  have hP := clM_parts hn (cl_parts h) (cl_between h)
  have e : t.source ++ n = t.lead ++ (clForm Spec.ClassPart.source t.parts ++ n) := by simp [Spec.ClassText.source, clForm]
  rw [e]
  refine clM_text hP (.inl rfl) (prose_over h.plain.lead) ?_
  by_cases hp : t.parts = []
  · left; rw [hp]; exact clM_newlines hn (by simp)
  · right
    rcases h.plain.before (by simpa [Spec.ClassText.plain] using hp) with e | e
    · exact .inr ⟨e, by simp⟩
    · exact .inl e

theorem cl_mild {C : Ctx} (hU : UniOk C.U) {lite : Bool} {t : Spec.ClassText} (h : t.Ok C.U.isLu lite) : Mild C.U (tableEnd C) t.source := by
  obtain ⟨h0, h1, h2, h3, h4, -⟩ := clM_ok
  have hs : ∀ {r : Re}, clM.avoids r = true → ∀ n : Str, (∀ c ∈ n, c = '\n') → r.search C.U [] (t.source ++ n) = none :=
    fun hr n hn => Auto.search_none hU h0 hr (by decide) (clM_source h hn)
  refine ⟨?_, hs h2 _ (by simp), hs h3 _ (tableEnd_nl C), hs h4 _ (tableEnd_nl C)⟩
  intro r hr
  have := hs (List.all_eq_true.1 h1 r hr) [] (by simp)
  simpa using this

end Rustextile
