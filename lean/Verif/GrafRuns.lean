import Verif.Mix

/-!
# `graf`, stage by stage
-/

namespace Rustextile

open Prog

theorem Runs.unless {C : Ctx} {b : Bool} {f : Str → Prog Str} {t u : Str} {σ σ' : PState}
    (h : b = false → Runs C (f t) u σ σ') (h' : b = true → u = t ∧ σ' = σ) : Runs C (unlessB b f t) u σ σ' := by
  unfold unlessB
  cases b with
  | true => obtain ⟨rfl, rfl⟩ := h' rfl; exact Runs.pure _ _
  | false => exact h rfl

theorem Runs.none {C : Ctx} {r : Re} {f : Mat → Prog Str} {t : Str} (h : r.search C.U [] t = .none) (σ : PState) :
    Runs C (replaceP C r f t) t σ σ := by
  rw [replaceP_none h]; exact Runs.pure _ _

/-- The stages of `graf` before tables (parser.rs:1515-1523). -/
def grafEarly (C : Ctx) (t : Str) : Prog Str := do
  let t ← unlessB C.cfg.lite (noTextile C) t
  let t ← unlessB C.cfg.lite (code C) t
  let t ← getHtmlComments C t
  let t ← getRefs C t
  let t ← glyphQuotedQuote C t
  let t ← links C (span C) t
  unlessB C.cfg.noimage (image C) t

/-- The stages before tables find nothing. -/
theorem runs_early {C : Ctx} (hf : 0 < C.fuel) {t : Str} (he : ∀ r ∈ earlyPatterns, r.search C.U [] t = .none)
    (hn : containsStr (C.cfg.uid ++ t!"linkStartMarker:") t = false) (σ : PState) : Runs C (grafEarly C t) t σ σ := by
  unfold grafEarly
  simp only [earlyPatterns, List.mem_cons, List.not_mem_nil, or_false, forall_eq_or_imp, forall_eq] at he
  obtain ⟨e1, e2, e3, e4, e5, e6, e7, e8, e9, e10, e11⟩ := he
  refine Runs.bind (a := t) (σ' := σ) ((Leaves.unless fun _ => ?_).runs σ) ?_
  · unfold noTextile; exact (Leaves.replaceP e1).bind (Leaves.replaceP e2)
  refine Runs.bind (a := t) (σ' := σ) ((Leaves.unless fun _ => ?_).runs σ) ?_
  · unfold code; exact (Leaves.replaceP e3).bind ((Leaves.replaceP e4).bind (Leaves.replaceP e5))
  refine Runs.bind (a := t) (σ' := σ) (Runs.none e6 σ) ?_
  refine Runs.bind (a := t) (σ' := σ) ?_ ?_
  · unfold getRefs; apply Runs.none; split <;> assumption
  refine Runs.bind (a := t) (σ' := σ) (Runs.none e9 σ) ?_
  refine Runs.bind (a := t) (σ' := σ) ((Leaves.links hf e10 hn).runs σ) ?_
  exact (Leaves.unless fun _ => Leaves.replaceP e11).runs σ

/-- The other stages of `graf`. -/
def grafLate (C : Ctx) (n : Nat) (t : Str) : Prog Str := do
  let t ← unlessB C.cfg.lite (table C (graf C n)) t
  let t ← unlessB C.cfg.lite (redclothList C (graf C n)) t
  let t ← unlessB C.cfg.lite (textileLists C) t
  let t ← span C t
  let t ← footnoteRef C t
  let t ← noteRef C t
  pure (trimEndP (· == '\n') (glyphs C t))

theorem graf_split {C : Ctx} {n : Nat} {src s a : Str} {σ σ1 σ' : PState} (he : Runs C (grafEarly C src) s σ σ1)
    (hk : Runs C (grafLate C n s) a σ1 σ') : Runs C (graf C (n + 1) src) a σ σ' := by
  have : graf C (n + 1) src = (grafEarly C src >>= grafLate C n) := by
    unfold graf grafEarly grafLate
    simp only [LawfulMonad.bind_assoc]
  rw [this]
  exact he.bind hk

/-- What tables append to a text without tables (parser.rs:665-671). -/
def tableEnd (C : Ctx) : Str := if C.cfg.lite then [] else t!"\n\n"

theorem tableEnd_nl (C : Ctx) : ∀ c ∈ tableEnd C, c = '\n' := by
  unfold tableEnd
  split <;> simp

theorem runs_table {C : Ctx} {g : Str → Prog Str} {t : Str} (h : TABLE_RE.search C.U [] (t ++ t!"\n\n") = .none) (σ : PState) :
    Runs C (unlessB C.cfg.lite (table C g) t) (t ++ tableEnd C) σ σ := by
  unfold tableEnd
  cases hl : C.cfg.lite with
  | true => simp only [unlessB, if_true, List.append_nil]; exact Runs.pure _ _
  | false =>
    simp only [unlessB, Bool.false_eq_true, if_false, table]
    rw [Re.captures_none h]
    exact Runs.pure _ _

/-- Texts without markup other than inline markup. -/
structure Mild (U : Uni) (nl t : Str) : Prop where
  early : ∀ r ∈ earlyPatterns, r.search U [] t = none
  table : TABLE_RE.search U [] (t ++ t!"\n\n") = none
  rclist : RCLIST_RE.search U [] (t ++ nl) = none
  lists : LISTS_RE.search U [] (t ++ nl) = none

/-- Texts in which nothing is found after inline markup has been replaced. -/
structure Done (U : Uni) (nl t : Str) : Prop where
  fn : FOOTNOTE_RE.search U [] (t ++ nl) = none
  note : NOTEREF_RE.search U [] (t ++ nl) = none
  glyph : ∀ r ∈ glyphPatterns, r.search U [] t = none
  lt : '<' ∉ t
  gt : '>' ∉ t
  last : ∀ c, t.getLast? = some c → c ≠ '\n'

/-- `graf` on a text in which after the first stages nothing but inline markup is left. -/
theorem runs_graf {C : Ctx} {n : Nat} {src s t : Str} {σ σ1 σ' : PState} (hm : Mild C.U (tableEnd C) s)
    (he : Runs C (grafEarly C src) s σ σ1)
    (hs : Runs C (span C (s ++ tableEnd C)) (t ++ tableEnd C) σ1 σ') (hd : Done C.U (tableEnd C) t) :
    Runs C (graf C (n + 1) src) t σ σ' := by
  refine graf_split he ?_
  unfold grafLate
  refine (runs_table hm.table σ1).bind ?_
  refine Runs.bind (a := s ++ tableEnd C) (σ' := σ1) ((Leaves.unless fun _ => Leaves.replaceP hm.rclist).runs σ1) ?_
  refine Runs.bind (a := s ++ tableEnd C) (σ' := σ1) ((Leaves.unless fun _ => Leaves.replaceP hm.lists).runs σ1) ?_
  refine hs.bind ?_
  refine Runs.bind (a := t ++ tableEnd C) (σ' := σ') (Runs.none hd.fn σ') ?_
  refine Runs.bind (a := t ++ tableEnd C) (σ' := σ') (Runs.none hd.note σ') ?_
  rw [glyphs_none hd.glyph hd.lt hd.gt hd.last (tableEnd_nl C), trimEndP_of_last (by simpa using hd.last)]
  exact Runs.pure _ _

end Rustextile
