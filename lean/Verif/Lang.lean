import Verif.Inert

/-!
# The words an expression can match

`Re.lang U r` contains every word `r` can match (assertions and back references are
not looked at).  It is used to show that there is no match, or to find out what a match
looks like.
-/

namespace Rustextile

def Re.lang (U : Uni) : Re → Str → Prop
  | .set n it, w => ∃ x, w = [x] ∧ evalSet U n it x = true
  | .seq a b, w => ∃ u v, w = u ++ v ∧ a.lang U u ∧ b.lang U v
  | .alt a b, w => a.lang U w ∨ b.lang U w
  | .star _ r, w => ∃ ws : List Str, w = ws.flatten ∧ ∀ u ∈ ws, r.lang U u
  | .grp _ r, w => r.lang U w
  | .bref _, _ => True
  | _, w => w = []

theorem starAll_lang {U : Uni} {r : Re}
    (h : ∀ c s p, p ∈ r.all U c s → ∃ w, Adv c w p.1 ∧ r.lang U w) (g : Bool) :
    ∀ f c s p, p ∈ starAll (fun c s => r.all U c s) g f c s →
      ∃ ws : List Str, Adv c ws.flatten p.1 ∧ ∀ u ∈ ws, r.lang U u
  | [], c, s, p, hp => by
    simp [starAll] at hp; subst hp; exact ⟨[], Adv.refl _, by simp⟩
  | _ :: f, c, s, p, hp => by
    have hp' : p = (c, s) ∨ p ∈ (r.all U c s).flatMap (fun p => starAll (fun c s => r.all U c s) g f p.1 p.2) := by
      unfold starAll at hp
      cases g
      · simpa using hp
      · simp only [if_true, List.mem_append, List.mem_singleton] at hp; exact hp.symm
    rcases hp' with rfl | hp'
    · exact ⟨[], Adv.refl _, by simp⟩
    · obtain ⟨q, hq, hp'⟩ := List.mem_flatMap.1 hp'
      obtain ⟨w, hw, hl⟩ := h _ _ _ hq
      obtain ⟨ws, hws, hls⟩ := starAll_lang h g f _ _ _ hp'
      refine ⟨w :: ws, ?_, by simpa using ⟨hl, hls⟩⟩
      rw [List.flatten_cons]; exact hw.trans hws

theorem Re.all_lang {U : Uni} : ∀ (r : Re) (c : Cur) (s : Caps) (p : Cur × Caps), p ∈ r.all U c s →
    ∃ w, Adv c w p.1 ∧ r.lang U w
  | .eps, c, s, p, hp => by
    simp [Re.all] at hp; subst hp; exact ⟨[], Adv.refl _, rfl⟩
  | .set n it, c, s, p, hp => by
    obtain ⟨x, xs, h1, h2, rfl⟩ := mem_set.1 hp
    exact ⟨[x], ⟨by simp [h1], by simp⟩, x, rfl, h2⟩
  | .seq a b, c, s, p, hp => by
    obtain ⟨c', s', h1, h2⟩ := mem_seq.1 hp
    obtain ⟨u, hu, lu⟩ := Re.all_lang a _ _ _ h1
    obtain ⟨v, hv, lv⟩ := Re.all_lang b _ _ _ h2
    exact ⟨u ++ v, hu.trans hv, u, v, rfl, lu, lv⟩
  | .alt a b, c, s, p, hp => by
    rcases mem_alt.1 hp with h | h
    · obtain ⟨u, hu, lu⟩ := Re.all_lang a _ _ _ h
      exact ⟨u, hu, .inl lu⟩
    · obtain ⟨u, hu, lu⟩ := Re.all_lang b _ _ _ h
      exact ⟨u, hu, .inr lu⟩
  | .star g r, c, s, p, hp => by
    obtain ⟨ws, h1, h2⟩ := starAll_lang (fun c s p h => Re.all_lang r c s p h) g _ _ _ _ hp
    exact ⟨_, h1, ws, rfl, h2⟩
  | .grp n r, c, s, p, hp => by
    obtain ⟨c', s', h1, rfl⟩ := mem_grp.1 hp
    obtain ⟨w, hw, lw⟩ := Re.all_lang r _ _ _ h1
    exact ⟨w, hw, lw⟩
  | .bref n, c, s, p, hp => by
    obtain ⟨w, hw⟩ := Re.all_adv U (.bref n) c s p hp
    exact ⟨w, hw, trivial⟩
  | .look n r, c, s, p, hp => by
    refine ⟨[], ?_, rfl⟩
    simp only [Re.all] at hp
    rw [Adv.nil_iff]
    split at hp <;> cases n <;> simp_all
  | .behind n k r, c, s, p, hp => by
    refine ⟨[], ?_, rfl⟩
    simp only [Re.all] at hp
    rw [Adv.nil_iff]
    split at hp
    · cases n <;> simp_all
    · split at hp <;> cases n <;> simp_all
  | .bot, c, s, p, hp => by rw [mem_bot] at hp; exact ⟨[], Adv.nil_iff.2 (by simp [hp.2]), rfl⟩
  | .eot, c, s, p, hp => by rw [mem_eot] at hp; exact ⟨[], Adv.nil_iff.2 (by simp [hp.2]), rfl⟩
  | .bol, c, s, p, hp => by rw [mem_bol] at hp; exact ⟨[], Adv.nil_iff.2 (by simp [hp.2]), rfl⟩
  | .eol, c, s, p, hp => by rw [mem_eol] at hp; exact ⟨[], Adv.nil_iff.2 (by simp [hp.2]), rfl⟩
  | .wordb, c, s, p, hp => by
    refine ⟨[], ?_, rfl⟩
    simp only [Re.all] at hp
    rw [Adv.nil_iff]
    split at hp <;> simp_all

theorem Re.search_none_lang {U : Uni} {r : Re} {text : Str}
    (h : ∀ a w b, text = a ++ (w ++ b) → ¬ r.lang U w) (pre : Str) : r.search U pre text = none := by
  apply Re.search_none_of
  intro a b e
  cases hl : r.all U ⟨a.reverse ++ pre, b⟩ [] with
  | nil => rfl
  | cons p l =>
    obtain ⟨w, hw, lw⟩ := Re.all_lang r ⟨a.reverse ++ pre, b⟩ [] p (by rw [hl]; simp)
    exact absurd lw (h a w p.1.rest (by rw [e, ← hw.1]))

theorem lang_seq {U : Uni} {a b : Re} {w : Str} :
    (Re.seq a b).lang U w ↔ ∃ u v, w = u ++ v ∧ a.lang U u ∧ b.lang U v := Iff.rfl
theorem lang_alt {U : Uni} {a b : Re} {w : Str} : (Re.alt a b).lang U w ↔ a.lang U w ∨ b.lang U w := Iff.rfl
theorem lang_grp {U : Uni} {n : Nat} {r : Re} {w : Str} : (Re.grp n r).lang U w ↔ r.lang U w := Iff.rfl
theorem lang_eps {U : Uni} {w : Str} : Re.eps.lang U w ↔ w = [] := Iff.rfl
theorem lang_look {U : Uni} {n : Bool} {r : Re} {w : Str} : (Re.look n r).lang U w ↔ w = [] := Iff.rfl
theorem lang_behind {U : Uni} {n : Bool} {k : Nat} {r : Re} {w : Str} : (Re.behind n k r).lang U w ↔ w = [] := Iff.rfl
theorem lang_bot {U : Uni} {w : Str} : Re.bot.lang U w ↔ w = [] := Iff.rfl
theorem lang_eot {U : Uni} {w : Str} : Re.eot.lang U w ↔ w = [] := Iff.rfl
theorem lang_set {U : Uni} {n : Bool} {it : List Item} {w : Str} :
    (Re.set n it).lang U w ↔ ∃ x, w = [x] ∧ evalSet U n it x = true := Iff.rfl

theorem lang_chr {U : Uni} {d : Char} {w : Str} : (Re.set false [.chr d]).lang U w ↔ w = [d] := by
  rw [lang_set]
  simp only [evalSet_chr, beq_iff_eq]
  constructor
  · rintro ⟨x, rfl, rfl⟩; rfl
  · rintro rfl; exact ⟨d, rfl, rfl⟩

theorem lang_star_set {U : Uni} {g n : Bool} {it : List Item} {w : Str} :
    (Re.star g (.set n it)).lang U w ↔ ∀ x ∈ w, evalSet U n it x = true := by
  constructor
  · rintro ⟨ws, rfl, h⟩ x hx
    obtain ⟨u, hu, hx⟩ := List.mem_flatten.1 hx
    obtain ⟨y, rfl, hy⟩ := h u hu
    simp at hx; subst hx; exact hy
  · intro h
    refine ⟨w.map (fun x => [x]), ?_, ?_⟩
    · rw [← List.flatMap_def, List.flatMap_singleton']
    · intro u hu
      obtain ⟨x, hx, rfl⟩ := List.mem_map.1 hu
      exact ⟨x, rfl, h x hx⟩

theorem Alpha.Over.append {A : Alpha} {u v : Str} : A.Over (u ++ v) ↔ A.Over u ∧ A.Over v := by
  simp only [Alpha.Over, List.mem_append]
  constructor
  · intro h; exact ⟨fun c hc => h c (.inl hc), fun c hc => h c (.inr hc)⟩
  · rintro ⟨h1, h2⟩ c (hc | hc)
    · exact h1 c hc
    · exact h2 c hc

/-- The expression matches no word over the alphabet. -/
def Re.dead (A : Alpha) : Re → Bool
  | .set n it => A.never n it
  | .seq a b => a.dead A || b.dead A
  | .alt a b => a.dead A && b.dead A
  | .grp _ r => r.dead A
  | _ => false

theorem Re.dead_lang {U : Uni} (hU : UniOk U) {A : Alpha} (hw : A.wf = true) : ∀ {r : Re}, r.dead A = true →
    ∀ {w : Str}, r.lang U w → ¬ A.Over w
  | .set n it, h, w, hl, hA => by
    obtain ⟨x, rfl, hx⟩ := hl
    rw [Alpha.never_sound hU hw h (hA x (by simp))] at hx
    cases hx
  | .seq a b, h, w, hl, hA => by
    simp only [Re.dead, Bool.or_eq_true] at h
    obtain ⟨u, v, rfl, hu, hv⟩ := hl
    rw [Alpha.Over.append] at hA
    rcases h with h | h
    · exact Re.dead_lang hU hw h hu hA.1
    · exact Re.dead_lang hU hw h hv hA.2
  | .alt a b, h, w, hl, hA => by
    simp only [Re.dead, Bool.and_eq_true] at h
    rcases hl with hl | hl
    · exact Re.dead_lang hU hw h.1 hl hA
    · exact Re.dead_lang hU hw h.2 hl hA
  | .grp _ r, h, w, hl, hA => Re.dead_lang hU hw (r := r) h hl hA
  | .star _ _, h, _, _, _ => by simp [Re.dead] at h
  | .bref _, h, _, _, _ => by simp [Re.dead] at h
  | .eps, h, _, _, _ => by simp [Re.dead] at h
  | .look _ _, h, _, _, _ => by simp [Re.dead] at h
  | .behind _ _ _, h, _, _, _ => by simp [Re.dead] at h
  | .bot, h, _, _, _ => by simp [Re.dead] at h
  | .eot, h, _, _, _ => by simp [Re.dead] at h
  | .bol, h, _, _, _ => by simp [Re.dead] at h
  | .eol, h, _, _, _ => by simp [Re.dead] at h
  | .wordb, h, _, _, _ => by simp [Re.dead] at h

/-- Over the alphabet, the expression matches only the empty word. -/
def Re.still (A : Alpha) : Re → Bool
  | .set n it => A.never n it
  | .seq a b => (a.still A && b.still A) || a.dead A || b.dead A
  | .alt a b => a.still A && b.still A
  | .star _ r => r.still A
  | .grp _ r => r.still A
  | .bref _ => false
  | _ => true

theorem Re.still_lang {U : Uni} (hU : UniOk U) {A : Alpha} (hw : A.wf = true) : ∀ {r : Re}, r.still A = true →
    ∀ {w : Str}, r.lang U w → A.Over w → w = []
  | .set n it, h, w, hl, hA => by
    obtain ⟨x, rfl, hx⟩ := hl
    rw [Alpha.never_sound hU hw h (hA x (by simp))] at hx
    cases hx
  | .seq a b, h, w, hl, hA => by
    simp only [Re.still, Bool.and_eq_true, Bool.or_eq_true] at h
    obtain ⟨u, v, rfl, hu, hv⟩ := hl
    rw [Alpha.Over.append] at hA
    rcases h with (h | h) | h
    · rw [Re.still_lang hU hw h.1 hu hA.1, Re.still_lang hU hw h.2 hv hA.2]; rfl
    · exact absurd hA.1 (Re.dead_lang hU hw h hu)
    · exact absurd hA.2 (Re.dead_lang hU hw h hv)
  | .alt a b, h, w, hl, hA => by
    simp only [Re.still, Bool.and_eq_true] at h
    rcases hl with hl | hl
    · exact Re.still_lang hU hw h.1 hl hA
    · exact Re.still_lang hU hw h.2 hl hA
  | .star _ r, h, w, hl, hA => by
    obtain ⟨ws, rfl, hws⟩ := hl
    rw [List.flatten_eq_nil_iff]
    intro u hu
    exact Re.still_lang hU hw (r := r) h (hws u hu) (fun c hc => hA c (List.mem_flatten.2 ⟨u, hu, hc⟩))
  | .grp _ r, h, w, hl, hA => Re.still_lang hU hw (r := r) h hl hA
  | .bref _, h, _, _, _ => by simp [Re.still] at h
  | .eps, _, _, hl, _ => hl
  | .look _ _, _, _, hl, _ => hl
  | .behind _ _ _, _, _, hl, _ => hl
  | .bot, _, _, hl, _ => hl
  | .eot, _, _, hl, _ => hl
  | .bol, _, _, hl, _ => hl
  | .eol, _, _, hl, _ => hl
  | .wordb, _, _, hl, _ => hl

/-- The characters of the alphabet a class accepts. -/
theorem Alpha.only {U : Uni} (hU : UniOk U) {A : Alpha} (hw : A.wf = true) {it : List Item}
    (h : it.all Item.neverOther = true) {c : Char} (hc : A.Mem c) (he : evalSet U false it c = true) :
    c ∈ A.ascii.filter (evalSet demoUni false it) := by
  rcases hc with hc | ⟨_, h1, h2, h3⟩
  · have : c.toNat < 128 := by simpa using List.all_eq_true.1 hw c hc
    rw [evalSet_ascii hU false it this] at he
    exact List.mem_filter.2 ⟨hc, he⟩
  · exfalso
    have : evalSet U false it c = false := by
      simp only [evalSet, bne_eq_false_iff_eq]
      rw [List.any_eq_false]
      intro i hi
      rw [Item.neverOther_sound (List.all_eq_true.1 h i hi) h1 h2 h3]; simp
    rw [this] at he; cases he

end Rustextile
