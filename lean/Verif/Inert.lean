import Verif.UniOk
import Verif.RegexStar

/-!
# Texts in which an expression does not match

`Re.need A r`: every match of `r` contains a character that does not belong to the
alphabet `A`.  So `r` does not match anywhere in a text over `A`.
-/

namespace Rustextile

/-- Non-ASCII characters that patterns mention and that can start markup, or are
equal to an ASCII letter up to case. -/
def specialChars : Str := t!"‹›«»„“”‚‘’ſ\u212A"

/-- An alphabet: some ASCII characters and possibly all non-ASCII characters that are
neither white space nor special. -/
structure Alpha where
  ascii : Str
  other : Bool

def Alpha.Mem (A : Alpha) (c : Char) : Prop :=
  c ∈ A.ascii ∨ (A.other = true ∧ 128 ≤ c.toNat ∧ isWs c = false ∧ c ∉ specialChars)

/-- The text is over the alphabet. -/
def Alpha.Over (A : Alpha) (s : Str) : Prop := ∀ c ∈ s, A.Mem c

def Alpha.wf (A : Alpha) : Bool := A.ascii.all (fun c => decide (c.toNat < 128))

theorem UC.eval_ascii {U : Uni} (hU : UniOk U) (k : UC) {c : Char} (h : c.toNat < 128) :
    k.eval U c = k.eval demoUni c := by
  cases k <;> simp only [UC.eval]
  · rw [hU.dec c h]; rfl
  · rw [hU.word c h]; rfl
  · rw [hU.letter c h]; rfl
  · rw [hU.upper c h]; rfl
  · rw [hU.lower c h]; rfl
  · rw [hU.mark c h]; rfl
  · rw [hU.num c h]; rfl
  · rw [hU.conn c h]; rfl
  · rw [hU.curr c h]; rfl

theorem Item.eval_ascii {U : Uni} (hU : UniOk U) (i : Item) {c : Char} (h : c.toNat < 128) :
    i.eval U c = i.eval demoUni c := by
  cases i <;> simp only [Item.eval, UC.eval_ascii hU _ h]

theorem evalSet_ascii {U : Uni} (hU : UniOk U) (n : Bool) (it : List Item) {c : Char} (h : c.toNat < 128) :
    evalSet U n it c = evalSet demoUni n it c := by
  simp only [evalSet, Item.eval_ascii hU _ h]

/-- The item accepts no character of the alphabet outside ASCII. -/
def Item.neverOther : Item → Bool
  | .chr d => decide (d.toNat < 128) || specialChars.contains d
  | .range _ hi => decide (hi.toNat < 128)
  | .cls k => k == .space
  | .ncls _ => false

/-- The class accepts no character of the alphabet. -/
def Alpha.never (A : Alpha) (n : Bool) (it : List Item) : Bool :=
  A.ascii.all (fun c => !evalSet demoUni n it c) &&
    (!A.other || if n then it.any (· == .ncls .space) else it.all Item.neverOther)

theorem Item.neverOther_sound {U : Uni} {i : Item} (h : i.neverOther = true) {c : Char}
    (h1 : 128 ≤ c.toNat) (h2 : isWs c = false) (h3 : c ∉ specialChars) : i.eval U c = false := by
  cases i with
  | chr d =>
    simp only [Item.neverOther, Bool.or_eq_true, decide_eq_true_eq] at h
    rw [Item.eval_chr, beq_eq_false_iff_ne]
    rintro rfl
    rcases h with h | h
    · omega
    · exact h3 (by simpa using h)
  | range lo hi =>
    simp only [Item.neverOther, decide_eq_true_eq] at h
    simp only [Item.eval, Bool.and_eq_false_iff, decide_eq_false_iff_not]
    right; omega
  | cls k =>
    simp only [Item.neverOther, beq_iff_eq] at h
    subst h; exact h2
  | ncls k => simp [Item.neverOther] at h

theorem Alpha.never_sound {U : Uni} (hU : UniOk U) {A : Alpha} (hw : A.wf = true) {n : Bool} {it : List Item}
    (h : A.never n it = true) {c : Char} (hc : A.Mem c) : evalSet U n it c = false := by
  simp only [Alpha.never, Bool.and_eq_true, List.all_eq_true, Bool.not_eq_true'] at h
  rcases hc with hc | ⟨ho, h1, h2, h3⟩
  · have : c.toNat < 128 := by simpa using List.all_eq_true.1 hw c hc
    rw [evalSet_ascii hU n it this]
    exact h.1 c hc
  · have h' := h.2
    simp only [ho, Bool.not_true, Bool.false_or] at h'
    cases n with
    | false =>
      simp only [Bool.false_eq_true, if_false, List.all_eq_true] at h'
      simp only [evalSet, bne_eq_false_iff_eq]
      rw [List.any_eq_false]
      intro i hi
      rw [Item.neverOther_sound (h' i hi) h1 h2 h3]; simp
    | true =>
      simp only [if_true, List.any_eq_true, beq_iff_eq] at h'
      obtain ⟨i, hi, rfl⟩ := h'
      simp only [evalSet, bne_eq_false_iff_eq]
      rw [List.any_eq_true]
      exact ⟨_, hi, by simp [Item.eval, UC.eval, h2]⟩

/-- Every match contains a character outside the alphabet. -/
def Re.need (A : Alpha) : Re → Bool
  | .set n it => A.never n it
  | .seq a b => a.need A || b.need A
  | .alt a b => a.need A && b.need A
  | .grp _ r => r.need A
  | .look false r => r.need A
  | _ => false

theorem Re.need_all {U : Uni} (hU : UniOk U) {A : Alpha} (hw : A.wf = true) : ∀ {r : Re}, r.need A = true →
    ∀ (c : Cur) (s : Caps), A.Over c.rest → r.all U c s = []
  | .set n it, h, c, s, hc => by
    rw [all_set_eq_nil]
    intro x xs e
    exact Alpha.never_sound hU hw h (hc x (by rw [e]; simp))
  | .seq a b, h, c, s, hc => by
    simp only [Re.need, Bool.or_eq_true] at h
    rw [all_seq]
    rcases h with h | h
    · rw [Re.need_all hU hw h c s hc]; rfl
    · rw [List.flatMap_eq_nil_iff]
      intro p hp
      obtain ⟨w, hw'⟩ := Re.all_adv U a c s p hp
      refine Re.need_all hU hw h p.1 p.2 ?_
      intro x hx
      exact hc x (by rw [hw'.1]; simp [hx])
  | .alt a b, h, c, s, hc => by
    simp only [Re.need, Bool.and_eq_true] at h
    rw [all_alt, Re.need_all hU hw h.1 c s hc, Re.need_all hU hw h.2 c s hc]; rfl
  | .grp n r, h, c, s, hc => by
    simp only [Re.need] at h
    simp only [Re.all, Re.need_all hU hw h c s hc, List.map_nil]
  | .look false r, h, c, s, hc => by
    simp only [Re.need] at h
    simp only [Re.all, Re.need_all hU hw h c s hc]; rfl
  | .look true r, h, _, _, _ => by simp [Re.need] at h
  | .eps, h, _, _, _ => by simp [Re.need] at h
  | .star _ _, h, _, _, _ => by simp [Re.need] at h
  | .bref _, h, _, _, _ => by simp [Re.need] at h
  | .behind _ _ _, h, _, _, _ => by simp [Re.need] at h
  | .bot, h, _, _, _ => by simp [Re.need] at h
  | .eot, h, _, _, _ => by simp [Re.need] at h
  | .bol, h, _, _, _ => by simp [Re.need] at h
  | .eol, h, _, _, _ => by simp [Re.need] at h
  | .wordb, h, _, _, _ => by simp [Re.need] at h

/-- If there is no match at any position the search fails. -/
theorem Re.search_none_of {U : Uni} {r : Re} {pre rest : Str}
    (h : ∀ a b, rest = a ++ b → r.all U ⟨a.reverse ++ pre, b⟩ [] = []) : r.search U pre rest = none := by
  rw [Re.search_none_iff]
  intro w b hb
  rw [Re.matchAt_none]
  have := h w b.rest hb.1
  rw [← hb.2] at this
  exact this

theorem Re.need_search {U : Uni} (hU : UniOk U) {A : Alpha} (hw : A.wf = true) {r : Re} (hr : r.need A = true)
    {text : Str} (ht : A.Over text) (pre : Str) : r.search U pre text = none := by
  apply Re.search_none_of
  intro a b e
  exact Re.need_all hU hw hr _ _ (fun c hc => ht c (by rw [e]; simp [hc]))

theorem Re.need_lit {A : Alpha} : ∀ {w : Str} {c : Char}, c ∈ w → A.never false [.chr c] = true → (Re.lit w).need A = true
  | [], _, h, _ => by simp at h
  | [a], c, h, h' => by
    simp at h; subst h; exact h'
  | a :: b :: w, c, h, h' => by
    change (Re.seq (.set false [.chr a]) (Re.lit (b :: w))).need A = true
    simp only [Re.need, Bool.or_eq_true]
    rcases List.mem_cons.1 h with rfl | h
    · exact .inl h'
    · exact .inr (Re.need_lit h h')

end Rustextile
