import Verif.RegexScan
import Verif.StrLemmas
import Verif.RegexParse

/-!
# Computing matches of concrete expressions
-/

namespace Rustextile

theorem char_toNat_inj {a b : Char} (h : a.toNat = b.toNat) : a = b := by
  apply Char.ext
  exact UInt32.toNat_inj.1 h

theorem Item.eval_chr (U : Uni) (d c : Char) : (Item.chr d).eval U c = (c == d) := by
  simp only [Item.eval]
  by_cases h : c = d
  · simp [h]
  · have : c.toNat ≠ d.toNat := fun e => h (char_toNat_inj e)
    rw [beq_eq_false_iff_ne.2 this, beq_eq_false_iff_ne.2 h]

theorem evalSet_chr (U : Uni) (d c : Char) : evalSet U false [.chr d] c = (c == d) := by
  simp only [evalSet, List.any_cons, List.any_nil, Item.eval_chr]
  cases c == d <;> rfl

theorem evalSet_nil (U : Uni) (c : Char) : evalSet U true [] c = true := rfl

theorem all_set_cons (U : Uni) (n : Bool) (it : List Item) (pre xs : Str) (x : Char) (s : Caps) :
    (Re.set n it).all U ⟨pre, x :: xs⟩ s = if evalSet U n it x then [(⟨x :: pre, xs⟩, s)] else [] := rfl

theorem all_set_nil (U : Uni) (n : Bool) (it : List Item) (pre : Str) (s : Caps) :
    (Re.set n it).all U ⟨pre, []⟩ s = [] := rfl

theorem all_seq (U : Uni) (a b : Re) (c : Cur) (s : Caps) :
    (Re.seq a b).all U c s = (a.all U c s).flatMap (fun p => b.all U p.1 p.2) := rfl

theorem all_alt (U : Uni) (a b : Re) (c : Cur) (s : Caps) :
    (Re.alt a b).all U c s = a.all U c s ++ b.all U c s := rfl

theorem all_seq_set_cons (U : Uni) (n : Bool) (it : List Item) (r : Re) (pre xs : Str) (x : Char) (s : Caps) :
    (Re.seq (.set n it) r).all U ⟨pre, x :: xs⟩ s
      = if evalSet U n it x then r.all U ⟨x :: pre, xs⟩ s else [] := by
  rw [all_seq, all_set_cons]
  split <;> simp

theorem all_seq_set_nil (U : Uni) (n : Bool) (it : List Item) (r : Re) (pre : Str) (s : Caps) :
    (Re.seq (.set n it) r).all U ⟨pre, []⟩ s = [] := rfl

/-! ## Membership -/

theorem mem_eps {U : Uni} {c : Cur} {s : Caps} {p : Cur × Caps} :
    p ∈ Re.eps.all U c s ↔ p = (c, s) := by simp [Re.all]

theorem mem_set {U : Uni} {n : Bool} {it : List Item} {c : Cur} {s : Caps} {p : Cur × Caps} :
    p ∈ (Re.set n it).all U c s ↔
      ∃ x xs, c.rest = x :: xs ∧ evalSet U n it x = true ∧ p = (⟨x :: c.pre, xs⟩, s) := by
  rcases c with ⟨pre, _ | ⟨x, xs⟩⟩
  · simp [all_set_nil]
  · rw [all_set_cons]
    by_cases h : evalSet U n it x = true
    · constructor
      · intro hp; exact ⟨x, xs, rfl, h, by simpa [h] using hp⟩
      · rintro ⟨y, ys, e, hy, hp⟩
        simp at e; obtain ⟨rfl, rfl⟩ := e; simp [h, hp]
    · constructor
      · intro hp; simp [h] at hp
      · rintro ⟨y, ys, e, hy, _⟩
        simp at e; rw [e.1] at h; exact absurd hy h

theorem all_set_eq_nil {U : Uni} {n : Bool} {it : List Item} {c : Cur} {s : Caps} :
    (Re.set n it).all U c s = [] ↔ ∀ x xs, c.rest = x :: xs → evalSet U n it x = false := by
  rcases c with ⟨pre, _ | ⟨x, xs⟩⟩
  · simp [all_set_nil]
  · rw [all_set_cons]
    by_cases h : evalSet U n it x = true
    · simp [h]
    · simp [h]

theorem mem_seq {U : Uni} {a b : Re} {c : Cur} {s : Caps} {p : Cur × Caps} :
    p ∈ (Re.seq a b).all U c s ↔ ∃ c' s', (c', s') ∈ a.all U c s ∧ p ∈ b.all U c' s' := by
  rw [all_seq, List.mem_flatMap]
  constructor
  · rintro ⟨q, h1, h2⟩; exact ⟨q.1, q.2, h1, h2⟩
  · rintro ⟨c', s', h1, h2⟩; exact ⟨(c', s'), h1, h2⟩

theorem mem_alt {U : Uni} {a b : Re} {c : Cur} {s : Caps} {p : Cur × Caps} :
    p ∈ (Re.alt a b).all U c s ↔ p ∈ a.all U c s ∨ p ∈ b.all U c s := by
  rw [all_alt, List.mem_append]

theorem mem_grp {U : Uni} {n : Nat} {r : Re} {c : Cur} {s : Caps} {p : Cur × Caps} :
    p ∈ (Re.grp n r).all U c s ↔ ∃ c' s', (c', s') ∈ r.all U c s ∧ p = (c', (n, between c c') :: s') := by
  simp only [Re.all, List.mem_map]
  constructor
  · rintro ⟨q, h1, h2⟩; exact ⟨q.1, q.2, h1, h2.symm⟩
  · rintro ⟨c', s', h1, h2⟩; exact ⟨(c', s'), h1, h2.symm⟩

theorem mem_bot {U : Uni} {c : Cur} {s : Caps} {p : Cur × Caps} :
    p ∈ Re.bot.all U c s ↔ c.pre = [] ∧ p = (c, s) := by
  simp only [Re.all]; split <;> simp_all

theorem mem_eot {U : Uni} {c : Cur} {s : Caps} {p : Cur × Caps} :
    p ∈ Re.eot.all U c s ↔ c.rest = [] ∧ p = (c, s) := by
  simp only [Re.all]; split <;> simp_all

theorem mem_bol {U : Uni} {c : Cur} {s : Caps} {p : Cur × Caps} :
    p ∈ Re.bol.all U c s ↔ (c.pre = [] ∨ c.pre.head? = some '\n') ∧ p = (c, s) := by
  simp only [Re.all]; split
  · simp_all
  · rename_i x xs h; by_cases hx : x = '\n' <;> simp [h, hx]

theorem mem_eol {U : Uni} {c : Cur} {s : Caps} {p : Cur × Caps} :
    p ∈ Re.eol.all U c s ↔ (c.rest = [] ∨ c.rest.head? = some '\n') ∧ p = (c, s) := by
  simp only [Re.all]; split
  · simp_all
  · rename_i x xs h; by_cases hx : x = '\n' <;> simp [h, hx]

theorem mem_look_neg {U : Uni} {r : Re} {c : Cur} {s : Caps} {p : Cur × Caps} :
    p ∈ (Re.look true r).all U c s ↔ r.all U c s = [] ∧ p = (c, s) := by
  simp only [Re.all]
  cases r.all U c s <;> simp

theorem mem_look_pos {U : Uni} {r : Re} {c : Cur} {s : Caps} {p : Cur × Caps}
    (h : p ∈ (Re.look false r).all U c s) : ∃ q ∈ r.all U c s, p = (c, q.2) := by
  simp only [Re.all] at h
  cases hr : r.all U c s with
  | nil => simp [hr] at h
  | cons q l => simp [hr] at h; exact ⟨q, by simp, h⟩

/-- The match at a position is one of the possible ones. -/
theorem Re.matchAt_mem {U : Uni} {r : Re} {c e : Cur} {s : Caps} (h : r.matchAt U c = some (e, s)) :
    (e, s) ∈ r.all U c [] := by
  rw [Re.matchAt_eq] at h
  exact List.mem_of_mem_head? (by rw [h]; rfl)

theorem Re.matchAt_none {U : Uni} {r : Re} {c : Cur} : r.matchAt U c = none ↔ r.all U c [] = [] := by
  rw [Re.matchAt_eq, List.head?_eq_none_iff]

/-! ## Literals -/

theorem Re.lit_all (U : Uni) : ∀ (w pre rest : Str) (s : Caps),
    (Re.lit w).all U ⟨pre, rest⟩ s
      = if w.isPrefixOf rest then [(⟨w.reverse ++ pre, rest.drop w.length⟩, s)] else []
  | [], pre, rest, s => by simp [Re.lit, Re.seqs, Re.all]
  | [a], pre, rest, s => by
    cases rest with
    | nil => simp [Re.lit, Re.seqs, Re.all]
    | cons x xs =>
      simp only [Re.lit, Re.seqs, List.map, all_set_cons, evalSet_chr]
      by_cases h : a = x
      · subst h; simp [List.isPrefixOf]
      · have h' : ¬ x = a := fun e => h e.symm
        simp [List.isPrefixOf, h, h']
  | a :: b :: w, pre, rest, s => by
    have ih := Re.lit_all U (b :: w)
    change (Re.seq (.set false [.chr a]) (Re.lit (b :: w))).all U ⟨pre, rest⟩ s = _
    cases rest with
    | nil => simp [all_seq_set_nil, List.isPrefixOf]
    | cons x xs =>
      rw [all_seq_set_cons, ih, evalSet_chr]
      by_cases h : a = x
      · subst h; simp [List.isPrefixOf]
      · have h' : ¬ x = a := fun e => h e.symm
        simp [List.isPrefixOf, h, h']

/-! ## Templates -/

theorem templAux_lit : ∀ (t : Str), (∀ c ∈ t, c ≠ '$') → templAux none t = t.map .lit
  | [], _ => rfl
  | c :: t, h => by
    have hc : (c == '$') = false := by simpa using h c (by simp)
    simp only [templAux, hc, List.map_cons]
    simp [templAux_lit t (fun d hd => h d (by simp [hd]))]

theorem templ_lit {t : Str} (h : ∀ c ∈ t, c ≠ '$') (w : Str) (s : Caps) : templ t w s = t := by
  simp only [templ, expandTemplate, expand, templAux_lit t h]
  induction t with
  | nil => rfl
  | cons c t ih => simp only [List.map_cons, List.flatMap_cons, ih (fun d hd => h d (by simp [hd]))]; rfl

end Rustextile
