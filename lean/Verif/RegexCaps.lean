import Verif.RegexStar
import Verif.RegexScan
import Verif.Lang

/-!
# What a match and its groups consist of

`Takes U r pre w rest s s'`: between the text `pre` (reversed) and the text `rest`, the
expression can match `w`, extending the groups `s` to `s'`.
-/

namespace Rustextile

def Takes (U : Uni) (r : Re) (pre w rest : Str) (s s' : Caps) : Prop :=
  (⟨w.reverse ++ pre, rest⟩, s') ∈ r.all U ⟨pre, w ++ rest⟩ s

theorem Takes.of_mem {U : Uni} {r : Re} {pre text : Str} {s : Caps} {p : Cur × Caps} (h : p ∈ r.all U ⟨pre, text⟩ s) :
    ∃ w rest, text = w ++ rest ∧ p.1 = ⟨w.reverse ++ pre, rest⟩ ∧ Takes U r pre w rest s p.2 := by
  obtain ⟨w, hw⟩ := Re.all_adv U r _ _ _ h
  obtain ⟨⟨p1, p2⟩, p3⟩ := p
  obtain ⟨h1, h2⟩ := hw
  simp only at h1 h2
  subst h1 h2
  exact ⟨w, p2, rfl, rfl, h⟩

theorem Takes.seq {U : Uni} {a b : Re} {pre w rest : Str} {s s' : Caps} (h : Takes U (.seq a b) pre w rest s s') :
    ∃ u v s1, w = u ++ v ∧ Takes U a pre u (v ++ rest) s s1 ∧ Takes U b (u.reverse ++ pre) v rest s1 s' := by
  obtain ⟨c1, s1, h1, h2⟩ := mem_seq.1 h
  obtain ⟨u, r1, e1, e2, h3⟩ := Takes.of_mem h1
  simp only at e2 h3
  subst e2
  obtain ⟨v, r2, e3, e4, h4⟩ := Takes.of_mem h2
  simp only [Cur.mk.injEq] at e4 h4
  obtain ⟨e4, rfl⟩ := e4
  subst e3
  have e5 : w = u ++ v := by
    rw [← List.append_assoc] at e1
    exact List.append_cancel_right e1
  subst e5
  exact ⟨u, v, s1, rfl, h3, h4⟩

theorem Takes.alt {U : Uni} {a b : Re} {pre w rest : Str} {s s' : Caps} (h : Takes U (.alt a b) pre w rest s s') :
    Takes U a pre w rest s s' ∨ Takes U b pre w rest s s' := mem_alt.1 h

theorem Takes.grp {U : Uni} {n : Nat} {r : Re} {pre w rest : Str} {s s' : Caps} (h : Takes U (.grp n r) pre w rest s s') :
    ∃ s1, Takes U r pre w rest s s1 ∧ s' = (n, w) :: s1 := by
  obtain ⟨c1, s1, h1, h2⟩ := mem_grp.1 h
  cases h2
  refine ⟨s1, h1, ?_⟩
  have : Adv ⟨pre, w ++ rest⟩ w ⟨w.reverse ++ pre, rest⟩ := ⟨rfl, rfl⟩
  rw [this.between]

theorem Takes.eps {U : Uni} {pre w rest : Str} {s s' : Caps} (h : Takes U .eps pre w rest s s') : w = [] ∧ s' = s := by
  have := mem_eps.1 h
  simp at this
  exact ⟨this.1, this.2⟩

theorem Takes.set {U : Uni} {n : Bool} {it : List Item} {pre w rest : Str} {s s' : Caps}
    (h : Takes U (.set n it) pre w rest s s') : ∃ x, w = [x] ∧ evalSet U n it x = true ∧ s' = s := by
  obtain ⟨x, xs, h1, h2, h3⟩ := mem_set.1 h
  simp only [Prod.mk.injEq, Cur.mk.injEq] at h3 h1
  obtain ⟨⟨-, rfl⟩, rfl⟩ := h3
  have : w = [x] := List.append_cancel_right (as := w) (bs := rest) (cs := [x]) (by simpa using h1)
  exact ⟨x, this, h2, rfl⟩

theorem Takes.chr {U : Uni} {d : Char} {pre w rest : Str} {s s' : Caps}
    (h : Takes U (.set false [.chr d]) pre w rest s s') : w = [d] ∧ s' = s := by
  obtain ⟨x, rfl, h2, rfl⟩ := h.set
  rw [evalSet_chr] at h2
  simp at h2
  exact ⟨by rw [h2], rfl⟩

theorem Takes.bot {U : Uni} {pre w rest : Str} {s s' : Caps} (h : Takes U .bot pre w rest s s') :
    pre = [] ∧ w = [] ∧ s' = s := by
  obtain ⟨h1, h2⟩ := mem_bot.1 h
  simp at h2
  exact ⟨h1, h2.1, h2.2⟩

theorem Takes.eot {U : Uni} {pre w rest : Str} {s s' : Caps} (h : Takes U .eot pre w rest s s') :
    rest = [] ∧ w = [] ∧ s' = s := by
  obtain ⟨h1, h2⟩ := mem_eot.1 h
  simp at h2 h1
  exact ⟨h1.2, h2.1, h2.2⟩

theorem Takes.bol {U : Uni} {pre w rest : Str} {s s' : Caps} (h : Takes U .bol pre w rest s s') :
    (pre = [] ∨ pre.head? = some '\n') ∧ w = [] ∧ s' = s := by
  obtain ⟨h1, h2⟩ := mem_bol.1 h
  simp at h2 h1
  exact ⟨by simpa using h1, h2.1, h2.2⟩

theorem Takes.eol {U : Uni} {pre w rest : Str} {s s' : Caps} (h : Takes U .eol pre w rest s s') :
    (rest = [] ∨ rest.head? = some '\n') ∧ w = [] ∧ s' = s := by
  obtain ⟨h1, h2⟩ := mem_eol.1 h
  simp only [Prod.mk.injEq, Cur.mk.injEq] at h2
  have hw : w = [] := by simpa using h2.1.1
  subst hw
  exact ⟨by simpa using h1, rfl, h2.2⟩

theorem Takes.look_neg {U : Uni} {r : Re} {pre w rest : Str} {s s' : Caps} (h : Takes U (.look true r) pre w rest s s') :
    r.all U ⟨pre, rest⟩ s = [] ∧ w = [] ∧ s' = s := by
  obtain ⟨h1, h2⟩ := mem_look_neg.1 h
  simp only [Prod.mk.injEq, Cur.mk.injEq] at h2
  have hw : w = [] := by simpa using h2.1.1
  subst hw
  exact ⟨by simpa using h1, rfl, h2.2⟩

theorem Takes.look_pos {U : Uni} {r : Re} {pre w rest : Str} {s s' : Caps} (h : Takes U (.look false r) pre w rest s s') :
    w = [] ∧ ∃ v rest', rest = v ++ rest' ∧ Takes U r pre v rest' s s' := by
  obtain ⟨q, hq, h2⟩ := mem_look_pos h
  simp only [Prod.mk.injEq, Cur.mk.injEq] at h2
  have hw : w = [] := by simpa using h2.1.1
  subst hw
  obtain ⟨v, r1, e1, -, h3⟩ := Takes.of_mem hq
  rw [← h2.2] at h3
  exact ⟨rfl, v, r1, e1, h3⟩

theorem Takes.wordb {U : Uni} {pre w rest : Str} {s s' : Caps} (h : Takes U .wordb pre w rest s s') : w = [] ∧ s' = s := by
  unfold Takes Re.all at h
  split at h
  · simp at h; exact ⟨h.1, h.2⟩
  · cases h

theorem Takes.lang {U : Uni} {r : Re} {pre w rest : Str} {s s' : Caps} (h : Takes U r pre w rest s s') : r.lang U w := by
  obtain ⟨v, hv, hl⟩ := Re.all_lang r _ _ _ h
  have : v = w := by
    have := hv.1
    simp only at this
    exact (List.append_cancel_right this).symm
  rw [← this]; exact hl

/-! ## Expressions without groups -/

def Re.nogrp : Re → Bool
  | .seq a b => a.nogrp && b.nogrp
  | .alt a b => a.nogrp && b.nogrp
  | .star _ r => r.nogrp
  | .grp _ _ => false
  | .look _ r => r.nogrp
  | .behind _ _ r => r.nogrp
  | _ => true

theorem starAll_nogrp {ab : Cur → Caps → List (Cur × Caps)} (h : ∀ c s p, p ∈ ab c s → p.2 = s) (g : Bool) :
    ∀ f c s p, p ∈ starAll ab g f c s → p.2 = s
  | [], c, s, p, hp => by
    simp [starAll] at hp; subst hp; rfl
  | _ :: f, c, s, p, hp => by
    have hp' : p = (c, s) ∨ p ∈ (ab c s).flatMap (fun p => starAll ab g f p.1 p.2) := by
      unfold starAll at hp
      cases g
      · simpa using hp
      · simp only [if_true, List.mem_append, List.mem_singleton] at hp; exact hp.symm
    rcases hp' with rfl | hp'
    · rfl
    · obtain ⟨q, hq, hpq⟩ := List.mem_flatMap.1 hp'
      rw [starAll_nogrp h g f q.1 q.2 p hpq, h c s q hq]

theorem Re.all_nogrp {U : Uni} : ∀ (r : Re), r.nogrp = true → ∀ c s p, p ∈ r.all U c s → p.2 = s
  | .eps, _, c, s, p, hp => by simp [Re.all] at hp; subst hp; rfl
  | .set n it, _, c, s, p, hp => by obtain ⟨x, xs, h1, h2, rfl⟩ := mem_set.1 hp; rfl
  | .seq a b, h, c, s, p, hp => by
    simp only [Re.nogrp, Bool.and_eq_true] at h
    obtain ⟨c1, s1, h1, h2⟩ := mem_seq.1 hp
    rw [Re.all_nogrp b h.2 _ _ _ h2]
    exact Re.all_nogrp a h.1 _ _ _ h1
  | .alt a b, h, c, s, p, hp => by
    simp only [Re.nogrp, Bool.and_eq_true] at h
    rcases mem_alt.1 hp with h1 | h1
    · exact Re.all_nogrp a h.1 _ _ _ h1
    · exact Re.all_nogrp b h.2 _ _ _ h1
  | .star g r, h, c, s, p, hp => by
    exact starAll_nogrp (Re.all_nogrp r h) g _ _ _ _ hp
  | .bref n, _, c, s, p, hp => by
    simp only [Re.all] at hp
    split at hp
    · simp at hp
    · split at hp
      · simp at hp; subst hp; rfl
      · simp at hp
  | .look neg r, h, c, s, p, hp => by
    have ih := Re.all_nogrp (U := U) r h
    cases neg with
    | true => rw [(mem_look_neg.1 hp).2]
    | false =>
      obtain ⟨q, hq, rfl⟩ := mem_look_pos hp
      exact ih c s q hq
  | .behind neg n r, h, c, s, p, hp => by
    have ih := Re.all_nogrp (U := U) r h
    simp only [Re.all] at hp
    split at hp
    · cases neg <;> simp at hp; subst hp; rfl
    · rename_i b _
      cases hr : r.all U b s with
      | nil => cases neg <;> simp [hr] at hp; subst hp; rfl
      | cons q l =>
        cases neg <;> simp [hr] at hp
        subst hp
        exact ih b s q (by rw [hr]; simp)
  | .bot, _, c, s, p, hp => by rw [(mem_bot.1 hp).2]
  | .eot, _, c, s, p, hp => by rw [(mem_eot.1 hp).2]
  | .bol, _, c, s, p, hp => by rw [(mem_bol.1 hp).2]
  | .eol, _, c, s, p, hp => by rw [(mem_eol.1 hp).2]
  | .wordb, _, c, s, p, hp => by
    simp only [Re.all] at hp; split at hp <;> simp at hp; subst hp; rfl

theorem Takes.nogrp {U : Uni} {r : Re} {pre w rest : Str} {s s' : Caps} (h : Takes U r pre w rest s s')
    (hn : r.nogrp = true) : s' = s := Re.all_nogrp r hn _ _ _ h

/-! ## From the matcher -/

theorem Takes.of_matchAt {U : Uni} {r : Re} {pre text : Str} {e : Cur} {s : Caps} (h : r.matchAt U ⟨pre, text⟩ = some (e, s)) :
    ∃ w rest, text = w ++ rest ∧ e = ⟨w.reverse ++ pre, rest⟩ ∧ Takes U r pre w rest [] s :=
  Takes.of_mem (Re.matchAt_mem h)

theorem Takes.of_search {U : Uni} {r : Re} {text : Str} {b e : Cur} {s : Caps} (h : r.search U [] text = some (b, e, s)) :
    ∃ a w rest, text = a ++ w ++ rest ∧ b = ⟨a.reverse, w ++ rest⟩ ∧ e = ⟨w.reverse ++ a.reverse, rest⟩ ∧
      Takes U r a.reverse w rest [] s := by
  obtain ⟨⟨a, ha⟩, hm⟩ := Re.search_some h
  obtain ⟨b1, b2⟩ := b
  obtain ⟨h1, h2⟩ := ha
  simp only [List.append_nil] at h1 h2
  subst h2
  obtain ⟨w, rest, e1, e2, h3⟩ := Takes.of_matchAt hm
  subst e1
  exact ⟨a, w, rest, by rw [h1]; simp, rfl, e2, h3⟩

/-- What `captures` returns. -/
theorem Re.captures_takes {U : Uni} {r : Re} {text : Str} {m : Mat} (h : r.captures U text = some m) :
    ∃ a rest, text = a ++ m.whole ++ rest ∧ m.gap = a ∧ Takes U r a.reverse m.whole rest [] m.caps := by
  unfold Re.captures at h
  split at h
  · rename_i b e s hs
    obtain ⟨a, w, rest, e1, e2, e3, h3⟩ := Takes.of_search hs
    simp only [Option.some.injEq] at h
    have hb : between b e = w := by
      subst e2 e3
      exact Adv.between ⟨rfl, rfl⟩
    subst h
    refine ⟨a, rest, ?_, ?_, ?_⟩
    · simp only; rw [hb, e1]
    · simp only [e2, e1]
      rw [show (a ++ w ++ rest).length - (w ++ rest).length = a.length by simp]
      simp
    · simp only; rw [hb]; exact h3
  · cases h

theorem Re.captures_eq {U : Uni} {r : Re} {text a w rest : Str} {s : Caps}
    (h : r.search U [] text = some (⟨a.reverse, w ++ rest⟩, ⟨w.reverse ++ a.reverse, rest⟩, s)) (ht : text = a ++ w ++ rest) :
    r.captures U text = some ⟨a, w, s⟩ := by
  unfold Re.captures
  rw [h]
  have : between ⟨a.reverse, w ++ rest⟩ ⟨w.reverse ++ a.reverse, rest⟩ = w := Adv.between ⟨rfl, rfl⟩
  simp only [this, ht]
  rw [show (a ++ w ++ rest).length - (w ++ rest).length = a.length by simp]
  simp

/-- What the matches of an expression in a text are, whatever the expression. -/
theorem segs_takes {U : Uni} {r : Re} : ∀ (f : Str) (prev : Bool) (gs cur : Cur) (m : Mat),
    m ∈ (segs U r f prev gs cur).1 → ∃ pre rest, Takes U r pre m.whole rest [] m.caps
  | [], _, _, _, m, h => by simp [segs] at h
  | _ :: f, prev, gs, cur, m, h => by
    unfold segs at h
    split at h
    · simp at h
    · rename_i ms me caps hs
      obtain ⟨-, hm⟩ := Re.search_some hs
      obtain ⟨pre, text⟩ := ms
      obtain ⟨w, rest, e1, e2, h3⟩ := Takes.of_matchAt hm
      have hb : between ⟨pre, text⟩ me = w := by
        subst e1 e2
        exact Adv.between ⟨rfl, rfl⟩
      have key : ∃ pre rest, Takes U r pre (between ⟨pre, text⟩ me) rest [] caps := ⟨pre, rest, by rw [hb]; exact h3⟩
      have key' : ∃ p rest, Takes U r p (between ⟨pre, text⟩ me) rest [] caps := ⟨pre, rest, by rw [hb]; exact h3⟩
      simp only at h
      split at h
      · split at h
        · split at h
          · simp at h
          · exact segs_takes f _ _ _ m h
        · split at h
          · simp at h; subst h; exact key'
          · simp only [List.mem_cons] at h
            rcases h with rfl | h
            · exact key'
            · exact segs_takes f _ _ _ m h
      · simp only [List.mem_cons] at h
        rcases h with rfl | h
        · exact key'
        · exact segs_takes f _ _ _ m h

theorem Re.matches_takes {U : Uni} {r : Re} {text : Str} {m : Mat} (h : m ∈ (r.matches U text).1) :
    ∃ pre rest, Takes U r pre m.whole rest [] m.caps := segs_takes _ _ _ _ m h

end Rustextile
