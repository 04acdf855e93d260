import Verif.RegexLemmas

/-!
# Replacing by scanning

For an expression that never matches the empty string, `replace_all` is a scan
from left to right: at each position either the expression matches, and the match
is replaced, or one character is copied.
-/

namespace Rustextile

/-- A sufficient condition for never matching the empty string. -/
def Re.nonnull : Re → Bool
  | .set _ _ => true
  | .seq a b => a.nonnull || b.nonnull
  | .alt a b => a.nonnull && b.nonnull
  | .grp _ r => r.nonnull
  | _ => false

theorem Re.nonnull_all {U : Uni} : ∀ (r : Re), r.nonnull = true → ∀ c s p w, p ∈ r.all U c s →
    Adv c w p.1 → w ≠ [] := by
  have cons_len : ∀ {c c' : Cur} {w w' : Str}, Adv c w c' → Adv c w' c' → w = w' := by
    intro c c' w w' h h'
    rw [← h.between, ← h'.between]
  intro r
  induction r with
  | set neg items =>
    intro _ c s p w hp hw he
    subst he
    simp only [Re.all] at hp
    split at hp
    · simp at hp
    · split at hp
      · simp at hp; subst hp
        have := hw.len; simp_all
      · simp at hp
  | seq a b iha ihb =>
    intro hn c s p w hp hw he
    obtain ⟨q, hq, hpq⟩ := List.mem_flatMap.1 hp
    obtain ⟨u, hu⟩ := Re.all_adv U a c s q hq
    obtain ⟨v, hv⟩ := Re.all_adv U b _ _ p hpq
    have e := cons_len hw (hu.trans hv)
    rw [he] at e
    have e' := List.append_eq_nil_iff.1 e.symm
    simp only [Re.nonnull, Bool.or_eq_true] at hn
    rcases hn with h | h
    · exact iha h c s q u hq hu e'.1
    · exact ihb h _ _ p v hpq hv e'.2
  | alt a b iha ihb =>
    intro hn c s p w hp hw
    simp only [Re.nonnull, Bool.and_eq_true] at hn
    rcases List.mem_append.1 hp with h | h
    · exact iha hn.1 _ _ _ _ h hw
    · exact ihb hn.2 _ _ _ _ h hw
  | grp n r ih =>
    intro hn c s p w hp hw
    obtain ⟨q, hq, rfl⟩ := List.mem_map.1 hp
    exact ih hn c s q w hq hw
  | _ => intro hn; simp [Re.nonnull] at hn

theorem Re.matchAt_nonnull {U : Uni} {r : Re} (hn : r.nonnull = true) {c e : Cur} {s : Caps}
    (h : r.matchAt U c = some (e, s)) : ∃ w, w ≠ [] ∧ Adv c w e := by
  obtain ⟨w, hw⟩ := Re.matchAt_adv h
  rw [Re.matchAt_eq] at h
  exact ⟨w, Re.nonnull_all (U := U) r hn c [] (e, s) w (List.mem_of_mem_head? (by simp [h])) hw, hw⟩

/-- No match at the `w.length` positions of `w` that follow `pre`. -/
def Skips (U : Uni) (r : Re) (pre w rest : Str) : Prop :=
  ∀ u x v, w = u ++ x :: v → r.matchAt U ⟨u.reverse ++ pre, x :: v ++ rest⟩ = none

theorem Skips.nil {U : Uni} {r : Re} {pre rest : Str} : Skips U r pre [] rest := by
  intro u x v h; simp at h

theorem Skips.cons {U : Uni} {r : Re} {pre w rest : Str} {x : Char}
    (h : r.matchAt U ⟨pre, x :: (w ++ rest)⟩ = none) (h' : Skips U r (x :: pre) w rest) :
    Skips U r pre (x :: w) rest := by
  intro u y v e
  cases u with
  | nil => simp at e; obtain ⟨rfl, rfl⟩ := e; simpa using h
  | cons z u =>
    simp at e; obtain ⟨rfl, rfl⟩ := e
    have := h' u y v rfl
    simpa using this

theorem Skips.head {U : Uni} {r : Re} {pre w rest : Str} {x : Char}
    (h : Skips U r pre (x :: w) rest) : r.matchAt U ⟨pre, x :: (w ++ rest)⟩ = none := by
  simpa using h [] x w rfl

theorem Skips.tail {U : Uni} {r : Re} {pre w rest : Str} {x : Char}
    (h : Skips U r pre (x :: w) rest) : Skips U r (x :: pre) w rest := by
  intro u y v e
  have := h (x :: u) y v (by simp [e])
  simpa using this

theorem Skips.append {U : Uni} {r : Re} : ∀ {w pre v rest : Str},
    Skips U r pre w (v ++ rest) → Skips U r (w.reverse ++ pre) v rest → Skips U r pre (w ++ v) rest
  | [], _, _, _, _, h => by simpa using h
  | x :: w, pre, v, rest, h, h' => by
    refine Skips.cons ?_ (Skips.append h.tail ?_)
    · simpa using h.head
    · simpa using h'

/-- A search passes over positions where there is no match. -/
theorem Re.search_skips {U : Uni} {r : Re} : ∀ {w pre rest : Str}, Skips U r pre w rest →
    r.search U pre (w ++ rest) = r.search U (w.reverse ++ pre) rest
  | [], pre, rest, _ => rfl
  | x :: w, pre, rest, h => by
    change r.search U pre (x :: (w ++ rest)) = _
    rw [Re.search, h.head]
    simp only
    rw [Re.search_skips h.tail]
    simp

theorem Re.search_hit {U : Uni} {r : Re} {pre rest : Str} {e : Cur} {s : Caps}
    (h : r.matchAt U ⟨pre, rest⟩ = some (e, s)) : r.search U pre rest = some (⟨pre, rest⟩, e, s) := by
  cases rest <;> simp [Re.search, h]

theorem Re.search_miss_nil {U : Uni} {r : Re} {pre : Str}
    (h : r.matchAt U ⟨pre, []⟩ = none) : r.search U pre [] = none := by
  simp [Re.search, h]

theorem Re.search_miss_cons {U : Uni} {r : Re} {pre xs : Str} {x : Char}
    (h : r.matchAt U ⟨pre, x :: xs⟩ = none) : r.search U pre (x :: xs) = r.search U (x :: pre) xs := by
  simp [Re.search, h]

/-- A successful search, with the skipped text. -/
theorem Re.search_inv {U : Uni} {r : Re} : ∀ {rest pre : Str} {b e : Cur} {s : Caps},
    r.search U pre rest = some (b, e, s) →
    ∃ w, Adv ⟨pre, rest⟩ w b ∧ Skips U r pre w b.rest ∧ r.matchAt U b = some (e, s)
  | [], pre, b, e, s, h => by
    unfold Re.search at h
    split at h
    · rename_i e' s' hm
      simp at h; obtain ⟨rfl, rfl, rfl⟩ := h
      exact ⟨[], Adv.refl _, Skips.nil, hm⟩
    · simp at h
  | x :: xs, pre, b, e, s, h => by
    unfold Re.search at h
    split at h
    · rename_i e' s' hm
      simp at h; obtain ⟨rfl, rfl, rfl⟩ := h
      exact ⟨[], Adv.refl _, Skips.nil, hm⟩
    · rename_i hm
      obtain ⟨w, hw, hs, hm'⟩ := Re.search_inv h
      have hx : xs = w ++ b.rest := hw.1
      refine ⟨x :: w, ⟨by simp [hx], by simp [hw.2]⟩, Skips.cons ?_ hs, hm'⟩
      rw [← hx]; exact hm

/-- The matches of an expression in a text, found from left to right. -/
inductive Segs (U : Uni) (r : Re) : Str → Str → List Mat → Str → Prop
  | done {pre rest : Str} (h : r.search U pre rest = none) : Segs U r pre rest [] rest
  | hit {pre gap whole rest tail : Str} {caps : Caps} {ms : List Mat}
      (hs : Skips U r pre gap (whole ++ rest))
      (hm : r.matchAt U ⟨gap.reverse ++ pre, whole ++ rest⟩
        = some (⟨whole.reverse ++ (gap.reverse ++ pre), rest⟩, caps))
      (hw : whole ≠ [])
      (h : Segs U r (whole.reverse ++ (gap.reverse ++ pre)) rest ms tail) :
      Segs U r pre (gap ++ (whole ++ rest)) (⟨gap, whole, caps⟩ :: ms) tail

theorem segs_of_Segs {U : Uni} {r : Re} {pre rest tail : Str} {ms : List Mat}
    (h : Segs U r pre rest ms tail) : ∀ (f : Str) (prev : Bool), rest.length < f.length →
    segs U r f prev ⟨pre, rest⟩ ⟨pre, rest⟩ = (ms, tail) := by
  induction h with
  | done h =>
    intro f prev hf
    cases f with
    | nil => simp at hf
    | cons y f => simp [segs, h]
  | @hit pre gap whole rest tail caps ms hs hm hw h ih =>
    intro f prev hf
    cases f with
    | nil => simp at hf
    | cons y f =>
      have e : r.search U pre (gap ++ (whole ++ rest)) = some (⟨gap.reverse ++ pre, whole ++ rest⟩,
          ⟨whole.reverse ++ (gap.reverse ++ pre), rest⟩, caps) := by
        rw [Re.search_skips hs, Re.search_hit hm]
      have a1 : Adv ⟨pre, gap ++ (whole ++ rest)⟩ gap ⟨gap.reverse ++ pre, whole ++ rest⟩ := ⟨rfl, rfl⟩
      have a2 : Adv ⟨gap.reverse ++ pre, whole ++ rest⟩ whole
          ⟨whole.reverse ++ (gap.reverse ++ pre), rest⟩ := ⟨rfl, rfl⟩
      have hwe : whole.isEmpty = false := by cases whole <;> simp_all
      have hl : rest.length < f.length := by
        cases whole with
        | nil => exact absurd rfl hw
        | cons z zs => simp at hf ⊢; omega
      rw [segs]
      simp only [e, a1.between, a2.between, hwe, ih f true hl]
      simp

theorem Segs.exists {U : Uni} {r : Re} (hn : r.nonnull = true) : ∀ (n : Nat) (pre rest : Str),
    rest.length < n → ∃ ms tail, Segs U r pre rest ms tail
  | 0, _, _, h => by omega
  | n + 1, pre, rest, h => by
    cases hs : r.search U pre rest with
    | none => exact ⟨[], rest, .done hs⟩
    | some q =>
      obtain ⟨b, e, s⟩ := q
      obtain ⟨gap, hg, hk, hm⟩ := Re.search_inv hs
      obtain ⟨w, hwn, hw⟩ := Re.matchAt_nonnull hn hm
      have hl : e.rest.length < n := by
        have h1 := hg.len; have h2 := hw.len
        simp only at h1
        have : 0 < w.length := List.length_pos_iff.2 hwn
        omega
      obtain ⟨ms, tail, ht⟩ := Segs.exists (U := U) hn n e.pre e.rest hl
      have hr : rest = gap ++ (w ++ e.rest) := by
        rw [← hw.1]; exact hg.1
      have hb : b = ⟨gap.reverse ++ pre, w ++ e.rest⟩ := by
        cases b; simp only [Cur.mk.injEq]; exact ⟨hg.2, hw.1⟩
      have he : e = ⟨w.reverse ++ (gap.reverse ++ pre), e.rest⟩ := by
        cases e; simp only [Cur.mk.injEq, and_true]; rw [← hg.2]; exact hw.2
      rw [hr]
      refine ⟨⟨gap, w, s⟩ :: ms, tail, .hit ?_ ?_ hwn ?_⟩
      · rw [hb] at hk; exact hk
      · rw [hb] at hm; rw [hm, ← he]
      · have hp : e.pre = w.reverse ++ (gap.reverse ++ pre) := congrArg Cur.pre he
        rw [← hp]; exact ht

/-- `matches` finds exactly the left-to-right matches. -/
theorem Re.matches_Segs {U : Uni} {r : Re} (hn : r.nonnull = true) (text : Str) :
    Segs U r [] text (r.matches U text).1 (r.matches U text).2 := by
  obtain ⟨ms, tail, h⟩ := Segs.exists (U := U) hn (text.length + 1) [] text (by omega)
  have := segs_of_Segs h (' ' :: text) false (by simp)
  rw [Re.matches, this]
  exact h

theorem Re.matches_of_Segs {U : Uni} {r : Re} {text tail : Str} {ms : List Mat}
    (h : Segs U r [] text ms tail) : r.matches U text = (ms, tail) :=
  segs_of_Segs h (' ' :: text) false (by simp)

/-- Scanning with replacement. -/
inductive Scan (U : Uni) (r : Re) (g : Str → Caps → Str) : Str → Str → Str → Prop
  | nil {pre : Str} : Scan U r g pre [] []
  | hit {pre w rest out : Str} {s : Caps}
      (hm : r.matchAt U ⟨pre, w ++ rest⟩ = some (⟨w.reverse ++ pre, rest⟩, s)) (hw : w ≠ [])
      (h : Scan U r g (w.reverse ++ pre) rest out) : Scan U r g pre (w ++ rest) (g w s ++ out)
  | miss {pre xs out : Str} {x : Char} (hm : r.matchAt U ⟨pre, x :: xs⟩ = none)
      (h : Scan U r g (x :: pre) xs out) : Scan U r g pre (x :: xs) (x :: out)

theorem Scan.of_skips {U : Uni} {r : Re} {g : Str → Caps → Str} : ∀ {w pre rest out : Str},
    Skips U r pre w rest → Scan U r g (w.reverse ++ pre) rest out → Scan U r g pre (w ++ rest) (w ++ out)
  | [], _, _, _, _, h => by simpa using h
  | x :: w, pre, rest, out, hs, h => by
    refine Scan.miss hs.head (Scan.of_skips hs.tail ?_)
    simpa using h

theorem Scan.of_none {U : Uni} {r : Re} {g : Str → Caps → Str} : ∀ {rest pre : Str},
    r.search U pre rest = none → Scan U r g pre rest rest
  | [], _, _ => .nil
  | x :: xs, pre, h => by
    have hm := Re.search_none_iff.1 h [] _ (Adv.refl _)
    refine .miss hm (Scan.of_none ?_)
    rw [← Re.search_miss_cons hm]; exact h

theorem Scan.of_Segs {U : Uni} {r : Re} {g : Str → Caps → Str} {f : Mat → Str}
    (hf : ∀ m, f m = g m.whole m.caps) {pre rest tail : Str} {ms : List Mat}
    (h : Segs U r pre rest ms tail) :
    Scan U r g pre rest ((ms.map (fun m => m.gap ++ f m)).flatten ++ tail) := by
  induction h with
  | done h => exact Scan.of_none h
  | hit hs hm hw h ih =>
    simp only [List.map_cons, List.flatten_cons, List.append_assoc, hf]
    refine Scan.of_skips hs (Scan.hit hm hw ?_)
    simpa [hf] using ih

/-- `replace_all` is a scan. -/
theorem Re.replaceAll_scan {U : Uni} {r : Re} (hn : r.nonnull = true) {f : Mat → Str}
    (g : Str → Caps → Str) (hf : ∀ m, f m = g m.whole m.caps) (text : Str) :
    Scan U r g [] text (r.replaceAll U f text) :=
  Scan.of_Segs hf (Re.matches_Segs hn text)

/-- A scan has one result. -/
theorem Scan.unique {U : Uni} {r : Re} {g : Str → Caps → Str} {pre rest out out' : Str}
    (h : Scan U r g pre rest out) (h' : Scan U r g pre rest out') : out = out' := by
  induction h generalizing out' with
  | nil =>
    generalize ht : ([] : Str) = text at h'
    cases h' with
    | nil => rfl
    | hit hm hw h => simp at ht; exact absurd ht.1 hw
    | miss hm h => simp at ht
  | @hit pre w rest out s hm hw h ih =>
    generalize ht : w ++ rest = text at hm h'
    cases h' with
    | nil => simp at ht; exact absurd ht.1 hw
    | @hit _ w' rest' out'' s' hm' hw' h'' =>
      rw [hm] at hm'
      simp only [Option.some.injEq, Prod.mk.injEq, Cur.mk.injEq] at hm'
      obtain ⟨⟨h1, h2⟩, h3⟩ := hm'
      subst h2
      have : w = w' := by simpa using ht
      subst this; subst h3
      rw [ih h'']
    | miss hm' h'' => rw [hm] at hm'; simp at hm'
  | @miss pre xs out x hm h ih =>
    generalize ht : x :: xs = text at hm h'
    cases h' with
    | nil => simp at ht
    | hit hm' hw' h'' => rw [hm] at hm'; simp at hm'
    | miss hm' h'' =>
      simp at ht; obtain ⟨rfl, rfl⟩ := ht
      rw [ih h'']

/-- To compute a replacement it is enough to exhibit a scan. -/
theorem Re.replaceAll_eq {U : Uni} {r : Re} (hn : r.nonnull = true) {f : Mat → Str}
    {g : Str → Caps → Str} (hf : ∀ m, f m = g m.whole m.caps) {text out : Str}
    (h : Scan U r g [] text out) : r.replaceAll U f text = out :=
  (Re.replaceAll_scan hn g hf text).unique h

/-- The value of a group, from the matched text and the captures. -/
def capGrp (w : Str) (s : Caps) (n : Nat) : Str := (Mat.mk [] w s).grp n

theorem Mat.grp_eq (m : Mat) (n : Nat) : m.grp n = capGrp m.whole m.caps n := rfl

/-- Template replacement, as a function of the matched text and the captures. -/
def templ (t : Str) (w : Str) (s : Caps) : Str := expand (expandTemplate t) ⟨[], w, s⟩

theorem expand_eq (l : List Piece) (m : Mat) : expand l m = expand l ⟨[], m.whole, m.caps⟩ := by
  unfold expand
  congr 1

theorem Re.replaceTempl_scan {U : Uni} {r : Re} (hn : r.nonnull = true) (t text : Str) :
    Scan U r (templ t) [] text (r.replaceTempl U t text) :=
  Re.replaceAll_scan hn _ (fun m => expand_eq _ m) text

theorem Re.replaceTempl_eq {U : Uni} {r : Re} (hn : r.nonnull = true) {t text out : Str}
    (h : Scan U r (templ t) [] text out) : r.replaceTempl U t text = out :=
  (Re.replaceTempl_scan hn t text).unique h

end Rustextile
