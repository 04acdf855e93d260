import Verif.Ordinary
import Verif.Demo

/-!
# Checking the descriptions of ordinary text on concrete texts

Used for the examples beside the theorems.
-/

namespace Rustextile

/-- What `Spec.Words` asks for, as a program. -/
def wordsB (up : Char → Bool) : Str → Bool
  | [] => true
  | c :: t => Spec.ordinaryChar c
      && !(match t with | y :: z :: _ => up c && up y && up z | _ => false)
      && !(match t with | y :: z :: _ => c == '.' && y == '.' && z == '.' | _ => false)
      && !(match t with | x :: _ => Spec.isDecimal c && (x == 'x' || x == 'X') | _ => false)
      && !(match t with | s :: x :: _ => Spec.isDecimal c && s == ' ' && (x == 'x' || x == 'X') | _ => false)
      && wordsB up t

theorem words_of_B {up : Char → Bool} : ∀ {t : Str}, wordsB up t = true → Spec.Words up t
  | [], _ => ⟨by simp, by simp, by simp, by simp⟩
  | c :: t, h => by
    simp only [wordsB, Bool.and_eq_true] at h
    obtain ⟨⟨⟨⟨⟨h1, h2⟩, h3⟩, h4⟩, h5⟩, h6⟩ := h
    have ih := words_of_B h6
    refine ⟨?_, ?_, ?_, ?_⟩
    · intro x hx
      rcases List.mem_cons.1 hx with rfl | hx
      · exact h1
      · exact ih.chars x hx
    · intro a x y z b e
      cases a with
      | nil => 
        simp only [List.nil_append, List.cons.injEq] at e
        obtain ⟨rfl, rfl⟩ := e
        simp at h2
        grind
      | cons d a =>
        simp only [List.cons_append, List.cons.injEq] at e
        exact ih.caps a x y z b e.2
    · intro a b e
      cases a with
      | nil =>
        simp only [List.nil_append, List.cons.injEq] at e
        obtain ⟨rfl, rfl⟩ := e
        simp at h3
      | cons d a =>
        simp only [List.cons_append, List.cons.injEq] at e
        exact ih.dots a b e.2
    · intro a d x b hd hx
      refine ⟨fun e => ?_, fun e => ?_⟩
      · cases a with
        | nil =>
          simp only [List.nil_append, List.cons.injEq] at e
          obtain ⟨rfl, rfl⟩ := e
          simp [hd] at h4
          rcases hx with rfl | rfl <;> simp at h4
        | cons d' a =>
          simp only [List.cons_append, List.cons.injEq] at e
          exact (ih.dims a d x b hd hx).1 e.2
      · cases a with
        | nil =>
          simp only [List.nil_append, List.cons.injEq] at e
          obtain ⟨rfl, rfl⟩ := e
          simp [hd] at h5
          rcases hx with rfl | rfl <;> simp at h5
        | cons d' a =>
          simp only [List.cons_append, List.cons.injEq] at e
          exact (ih.dims a d x b hd hx).2 e.2

/-- A line of ordinary text, checked. -/
theorem line_of_B {up : Char → Bool} {t : Str} (h : wordsB up t = true)
    (hs : (match t with | c :: _ => c != ' ' | [] => false) = true) : Spec.Line up t := by
  refine { toWords := words_of_B h, start := ?_ }
  cases t with
  | nil => cases hs
  | cons c u => exact ⟨c, u, rfl, by simpa using hs⟩

/-- Block words start with one of six characters. -/
theorem noBlock_head {dig : Char → Bool} {lite : Bool} {c : Char} {t : Str} (h : c ∉ t!"bnp#hf") :
    Spec.NoBlockWord dig lite (c :: t) := by
  intro w u e hw
  replace hw : Spec.fullWord dig w := by
    cases lite
    · exact hw
    · left
      simp only [Spec.blockWord, if_true, Spec.liteWord, List.mem_cons, List.not_mem_nil, or_false] at hw
      rcases hw with rfl | rfl | rfl <;> decide
  cases w with
  | nil => rcases hw with hw | ⟨d, ds, hw, -⟩ <;> simp at hw
  | cons x w =>
    obtain ⟨rfl, -⟩ : c = x ∧ _ := by simpa using e
    rcases hw with hw | ⟨d, ds, hw, -⟩
    · simp at hw h
      grind
    · simp at hw h
      grind

theorem plainBase_demo : Spec.PlainBase t!"abc" := by
  refine ⟨by decide, ?_, ?_⟩
  · intro a x y z b e
    match a, e with
    | [], e => simp at e; obtain ⟨rfl, rfl, rfl, -⟩ := e; decide
    | [_], e => simp at e
    | [_, _], e => simp at e
    | [_, _, _], e => simp at e
    | _ :: _ :: _ :: _ :: _, e => simp at e
  · intro a d x b hd hx e
    match a, e with
    | [], e => simp at e; obtain ⟨rfl, -⟩ := e; revert hd; decide
    | [_], e => simp at e; obtain ⟨-, rfl, -⟩ := e; revert hd; decide
    | [_, _], e => simp at e
    | [_, _, _], e => simp at e
    | _ :: _ :: _ :: _ :: _, e => simp at e

theorem no_token {cfg : Cfg} {base t : Str} (huid : cfg.uid = t!"textileRef:" ++ base ++ t!":") (h : ':' ∉ t) :
    ¬ cfg.uid <:+: t := by
  rintro ⟨a, b, e⟩
  apply h
  rw [← e, huid]
  simp

end Rustextile
