import Verif.LinkStage
import Verif.InlineBlock

/-!
# The text of a block: what the first stages do

Code and verbatim text are set aside; what is left are marked parts and placeholders.
-/

namespace Rustextile

open Prog

/-! ## From the description to the conditions of the proofs -/

theorem prose_over {up : Char → Bool} {t : Str} (h : Spec.Prose up t) : linesA.Over t := by
  intro c hc
  rw [linesA_iff]
  rcases h.chars c hc with h | h
  · left; rw [plainA_iff]; exact h
  · exact .inr h

theorem prose_good {U : Uni} {t : Str} (h : Spec.Prose U.isLu t) : Good U t := good_iff.2 ⟨h.caps, h.dots, h.dims⟩

theorem prose_lined {up : Char → Bool} : ∀ {t : Str}, (∀ c ∈ t, Spec.ordinaryChar c = true ∨ c = '\n') →
    (∀ a c b, t = a ++ '\n' :: c :: b → c ≠ ' ' ∧ c ≠ '\n') → linedW t = true
  | [], _, _ => rfl
  | [_], _, _ => rfl
  | c :: d :: t, h, hl => by
    simp only [linedW, Bool.and_eq_true, Bool.or_eq_true, bne_iff_ne, ne_eq]
    refine ⟨?_, prose_lined (up := up) (fun x hx => h x (by simp at hx ⊢; simp [hx])) (fun a x b e => hl (c :: a) x b (by rw [e]; rfl))⟩
    by_cases hc : c = '\n'
    · right
      obtain ⟨h1, h2⟩ := hl [] d t (by rw [hc]; rfl)
      have := (h d (by simp)).resolve_right h2
      simp [lineStart, (plain_nows this h1).1, (plain_nows this h1).2]
    · exact .inl hc

theorem ends_ws {t : Str} (h : Spec.EndsInSpace t) : ∃ u c, t = u ++ [c] ∧ isWs c = true := by
  obtain ⟨u, c, e, h | h⟩ := h <;> exact ⟨u, c, e, by rw [h]; decide⟩

theorem plainNext_of {c : Char} (h : Spec.ordinaryChar c = true ∨ c = '\n') (h1 : c ≠ '.') (h2 : c ≠ ',') (h3 : Spec.isDecimal c = false) :
    PlainNext c := by
  have hA : linesA.Mem c := by
    rw [linesA_iff, plainA_iff]; exact h
  refine ⟨?_, linesA_safe hA, ?_⟩
  · rcases hA with hA | ⟨-, g1, -, g2⟩
    · have : ∀ c ∈ linesA.ascii, c ≠ '.' → c ≠ ',' → c ∉ SPAN_PNCT := by decide
      exact this c hA h1 h2
    · intro hm
      have : ∀ c ∈ SPAN_PNCT, c.toNat < 128 ∨ c ∈ specialChars := by decide
      rcases this c hm with h | h
      · omega
      · exact g2 h
  · simpa [isDigitC, Spec.isDecimal] using h3

theorem part_marker {m : Str} (h : m ∈ Spec.inlineElements.map (·.1)) : m ∈ markers ∧ tagName m = Spec.inlineElement m := by
  have : ∀ m ∈ Spec.inlineElements.map (·.1), m ∈ markers ∧ tagName m = Spec.inlineElement m := by decide
  exact this m h

theorem words_prose {up : Char → Bool} {t : Str} (h : Spec.Words up t) : linesA.Over t ∧ '\n' ∉ t := by
  refine ⟨fun c hc => ?_, fun hc => ?_⟩
  · rw [linesA_iff, plainA_iff]; exact .inl (h.chars c hc)
  · have := h.chars _ hc; revert this; decide

theorem gap_inner {up : Char → Bool} {lite : Bool} {g : Str} (hp : Spec.Prose up g) (h : Spec.CanFollow lite g) (he : Spec.EndsInSpace g) :
    g ≠ [] ∧ AtGap g := by
  obtain ⟨u, x, e, hx⟩ := he
  refine ⟨by rw [e]; simp, ?_⟩
  match g, hp, h, e with
  | [], _, _, e => simp at e
  | [c], _, h, e =>
    have : c = x := by
      cases u with
      | nil => simpa using e
      | cons y u => simp at e
    subst this
    rcases hx with rfl | rfl
    · exact .inr (.inl ⟨_, _, rfl, .inl rfl⟩)
    · exact .inr (.inl ⟨_, _, rfl, .inr rfl⟩)
  | c :: d :: g, hp, h, _ =>
    rcases h with h | h | ⟨h, h1, h2, h3⟩
    · exact .inr (.inl ⟨_, _, rfl, .inl h⟩)
    · exact .inr (.inl ⟨_, _, rfl, .inr h⟩)
    · exact .inr (.inr ⟨_, _, _, rfl, h, plainNext_of (hp.chars d (by simp)) h1 h2 h3⟩)

theorem gap_last {up : Char → Bool} {C : Ctx} {g : Str} (hp : Spec.Prose up g) (h : Spec.CanFollow C.cfg.lite g) : AtGap (g ++ tableEnd C) := by
  match g, hp, h with
  | [], _, _ =>
    unfold tableEnd
    split
    · exact .inl rfl
    · exact .inr (.inl ⟨_, _, rfl, .inr rfl⟩)
  | [c], _, h =>
    rcases h with h | h | ⟨h, hl⟩
    · exact .inr (.inl ⟨_, _, rfl, .inl h⟩)
    · exact .inr (.inl ⟨_, _, rfl, .inr h⟩)
    · refine .inr (.inr ⟨c, '\n', ['\n'], ?_, h, plainNext_of (.inr rfl) (by decide) (by decide) (by decide)⟩)
      simp [tableEnd, hl]
  | c :: d :: g, hp, h =>
    rcases h with h | h | ⟨h, h1, h2, h3⟩
    · exact .inr (.inl ⟨_, _, rfl, .inl h⟩)
    · exact .inr (.inl ⟨_, _, rfl, .inr h⟩)
    · exact .inr (.inr ⟨_, _, _, rfl, h, plainNext_of (hp.chars d (by simp)) h1 h2 h3⟩)

/-! ## Placeholders as part of the text -/

/-- Ordinary text with placeholders. -/
structure LeadOk (C : Ctx) (start : Bool) (w : Str) : Prop where
  over : mixA.Over w
  good : Good C.U w
  calm : calm start w = true
  keyed : Keyed C.cfg.uid w
  lined : linedW w = true

theorem prose_lead {C : Ctx} {w : Str} (h : Spec.Prose C.U.isLu w) (b : Bool) : LeadOk C b w where
  over := fun c hc => linesA_mix (prose_over h c hc)
  good := prose_good h
  calm := calm_nocolon (linesA_nocolon (prose_over h))
  keyed := by
    have := Keyed.text (uid := C.cfg.uid) (linesA_nocolon (prose_over h)) .nil
    simpa using this
  lined := prose_lined (up := C.U.isLu) h.chars h.lines

theorem key_mix {base : Str} (hb : Spec.PlainBase base) (n : Nat) : mixA.Over (shelfKey (uidOf base) n) := by
  intro c hc
  simp only [shelfKey, List.mem_append] at hc
  rcases hc with (hc | hc) | hc
  · exact uid_mix hb hc
  · exact natStr_mix hc
  · exact .inl ((by decide : ∀ c ∈ t!":shelve", c ∈ mixA.ascii) c hc)

theorem key_cons {base : Str} (n : Nat) : ∃ r, shelfKey (uidOf base) n = 't' :: r := ⟨_, by simp [shelfKey, uidOf]; rfl⟩

theorem linedW_append : ∀ {g r : Str}, linedW g = true → linedW r = true →
    (g.getLast? = some '\n' → ∀ d r', r = d :: r' → lineStart d = true) → linedW (g ++ r) = true
  | [], r, _, hr, _ => hr
  | [c], r, _, hr, h => by
    cases r with
    | nil => rfl
    | cons d r =>
      simp only [List.cons_append, List.nil_append, linedW, Bool.and_eq_true, Bool.or_eq_true, bne_iff_ne, ne_eq]
      refine ⟨?_, hr⟩
      by_cases e : c = '\n'
      · exact .inr (h (by rw [e]; rfl) d r rfl)
      · exact .inl e
  | c :: d :: g, r, hg, hr, h => by
    simp only [linedW, Bool.and_eq_true] at hg
    simp only [List.cons_append, linedW, Bool.and_eq_true]
    exact ⟨hg.1, linedW_append (g := d :: g) hg.2 hr (fun e => h (by rw [List.getLast?_cons_cons]; exact e))⟩

theorem calm_key {base : Str} (hb : Spec.PlainBase base) {n : Nat} {a : Str} (ha : calm false a = true) (b : Bool) :
    calm b (shelfKey (uidOf base) n ++ a) = true := by
  have h0 := calm_line (key_nonl hb n) ha
  obtain ⟨r, e⟩ := key_cons (base := base) n
  rw [e] at h0 ⊢
  simp only [List.cons_append, calm, Bool.and_eq_true] at h0 ⊢
  exact ⟨by cases b <;> decide, h0.2⟩

theorem LeadOk.key {C : Ctx} {base : Str} (D : DocCtx C base) {b : Bool} {w a : Str} (hw : LeadOk C b w) (ha : LeadOk C false a) (n : Nat) :
    LeadOk C b (w ++ (shelfKey C.cfg.uid n ++ a)) where
  over := by
    rw [D.uid, Alpha.Over.append, Alpha.Over.append]
    exact ⟨hw.over, key_mix D.plain n, ha.over⟩
  good := by
    have hN : ∀ {c : Char}, c.toNat < 128 → (isUp c = false ∧ c ∉ t!". xX" ∧ Spec.isDecimal c = false) → Neutral C.U c :=
      fun h h' => neutral_ascii D.uni h h'
    have h1 : Good C.U (t!"shelve" ++ a) :=
      .cons (hN (by decide) (by decide)) (.cons (hN (by decide) (by decide)) (.cons (hN (by decide) (by decide))
        (.cons (hN (by decide) (by decide)) (.cons (hN (by decide) (by decide)) (.cons (hN (by decide) (by decide)) ha.good)))))
    have := good_ref D.uni D.plain n hw.good h1
    rw [D.uid]
    simpa [shelfKey] using this
  calm := by rw [D.uid]; exact calm_append hw.calm (calm_key D.plain ha.calm)
  keyed := hw.keyed.append (.key ha.keyed)
  lined := by
    rw [D.uid]
    obtain ⟨r, e⟩ := key_cons (base := base) n
    refine linedW_append hw.lined (linedW_append (linedW_nonl (key_nonl D.plain n)) ha.lined ?_) ?_
    · intro h; exact absurd (List.mem_of_getLast? h) (key_nonl D.plain n)
    · intro _ d r' e'
      rw [e] at e'
      simp at e'
      rw [← e'.1]; decide

/-- The marked parts, with the rest as text between them. -/
def merge (uid : Str) : Str → List (Slot × Str) → Str × List Part
  | w, [] => (w, [])
  | w, (.inl (.marked m t), a) :: L => (w, (m, t, (merge uid a L).1) :: (merge uid a L).2)
  | w, (s, a) :: L => merge uid (w ++ (s.str uid ++ a)) L

theorem merge_text (uid : Str) : ∀ (L : List (Slot × Str)) (w : Str),
    (merge uid w L).1 ++ rawText (merge uid w L).2 = w ++ slotsText uid L
  | [], w => by simp [merge, rawText, slotsText]
  | (.inl (.marked m t), a) :: L, w => by
    have := merge_text uid L a
    rw [slotsText_cons, ← this]
    simp [merge, rawText, Slot.str, Spec.Inline.source]
  | (.inl (.code t), a) :: L, w => by
    rw [merge, merge_text uid L _, slotsText_cons]
    · simp
    · exact nofun
  | (.inl (.verbatim t), a) :: L, w => by
    rw [merge, merge_text uid L _, slotsText_cons]
    · simp
    · exact nofun
  | (.inl (.link t x y z), a) :: L, w => by
    rw [merge, merge_text uid L _, slotsText_cons]
    · simp
    · exact nofun
  | (.key n v, a) :: L, w => by
    rw [merge, merge_text uid L _, slotsText_cons]
    · simp
    · exact nofun

theorem merge_prefix (uid : Str) : ∀ (L : List (Slot × Str)) (w : Str), w <+: (merge uid w L).1
  | [], w => List.prefix_refl _
  | (.inl (.marked m t), a) :: L, w => List.prefix_refl _
  | (.inl (.code t), a) :: L, w => (List.prefix_append _ _).trans (merge_prefix uid L _)
  | (.inl (.verbatim t), a) :: L, w => (List.prefix_append _ _).trans (merge_prefix uid L _)
  | (.inl (.link t x y z), a) :: L, w => (List.prefix_append _ _).trans (merge_prefix uid L _)
  | (.key n v, a) :: L, w => (List.prefix_append _ _).trans (merge_prefix uid L _)

theorem merge_length (uid : Str) : ∀ (L : List (Slot × Str)) (w : Str),
    (merge uid w L).2.length ≤ L.countP (fun p => match p.1 with | .inl (.marked _ _) => true | _ => false)
  | [], w => by simp [merge]
  | (.inl (.marked m t), a) :: L, w => by
    have := merge_length uid L a
    simp [merge]; omega
  | (.inl (.code t), a) :: L, w => by
    have := merge_length uid L (w ++ (Slot.str uid (.inl (.code t)) ++ a))
    simp [merge]; omega
  | (.inl (.verbatim t), a) :: L, w => by
    have := merge_length uid L (w ++ (Slot.str uid (.inl (.verbatim t)) ++ a))
    simp [merge]; omega
  | (.inl (.link t x y z), a) :: L, w => by
    have := merge_length uid L (w ++ (Slot.str uid (.inl (.link t x y z)) ++ a))
    simp [merge]; omega
  | (.key n v, a) :: L, w => by
    have := merge_length uid L (w ++ (Slot.str uid (.key n v) ++ a))
    simp [merge]; omega

/-- Marked parts and placeholders, each with the text after it. -/
def Slot2 (C : Ctx) (p : Slot × Str) : Prop :=
  Spec.Prose C.U.isLu p.2 ∧ match p.1 with
    | .inl (.marked m t) => (Spec.Inline.marked m t).Ok C.U.isLu C.cfg.lite p.2
    | .inl _ => False
    | .key _ _ => True

/-- Marked parts with the text between them. -/
structure MergeOk (C : Ctx) (start : Bool) (q : Str × List Part) : Prop where
  lead : LeadOk C start q.1
  parts : ∀ p ∈ q.2, PartOk C.U p ∧ LeadOk C false p.2.2
  spaced : Spaced (tableEnd C) (rawItems q.2)
  start : q.2 ≠ [] → AfterGap q.1.reverse

theorem merge_ok {C : Ctx} {base : Str} (D : DocCtx C base) : ∀ (L : List (Slot × Str)) (b : Bool) (w : Str), LeadOk C b w →
    (∀ p ∈ L, Slot2 C p) → (L ≠ [] → AfterGap w.reverse) → (∀ p ∈ L.dropLast, Spec.EndsInSpace p.2) →
    MergeOk C b (merge C.cfg.uid w L)
  | [], b, w, hw, _, _, _ => ⟨hw, fun _ hp => absurd hp List.not_mem_nil, trivial, fun h => absurd rfl h⟩
  | (s, a) :: L, b, w, hw, hL, hg, hb => by
    obtain ⟨hp, hs⟩ := hL (s, a) (by simp)
    have hL' : ∀ p ∈ L, Slot2 C p := fun p hp => hL p (by simp [hp])
    have ha : L ≠ [] → Spec.EndsInSpace a := fun hne => hb (s, a) (by
      rw [List.dropLast_cons_of_ne_nil hne]; simp)
    have hb' : ∀ p ∈ L.dropLast, Spec.EndsInSpace p.2 := by
      intro p hp
      refine hb p ?_
      rw [List.dropLast_cons_of_ne_nil (by rintro rfl; cases hp)]
      exact List.mem_cons_of_mem _ hp
    have hal : LeadOk C false a := prose_lead hp false
    have hag : L ≠ [] → AfterGap a.reverse := by
      intro hne
      obtain ⟨u, c, e, hc⟩ := ends_ws (ha hne)
      exact .inr ⟨c, u.reverse, by rw [e]; simp, hc⟩
    cases s with
    | key n v =>
      rw [show merge C.cfg.uid w ((.key n v, a) :: L) = merge C.cfg.uid (w ++ (Slot.str C.cfg.uid (.key n v) ++ a)) L from rfl]
      refine merge_ok D L b _ (hw.key D hal n) hL' ?_ hb'
      intro hne
      obtain ⟨u, c, e, hc⟩ := ends_ws (ha hne)
      exact .inr ⟨c, u.reverse ++ ((shelfKey C.cfg.uid n).reverse ++ w.reverse), by rw [e]; simp [Slot.str], hc⟩
    | inl i =>
      cases i with
      | code t => exact hs.elim
      | verbatim t => exact hs.elim
      | link t x y z => exact hs.elim
      | marked m t =>
        obtain ⟨h1, h2, ⟨x, u, e, hx1, hx2⟩, ⟨u', y, e', hy⟩, h5⟩ := hs
        have ih := merge_ok D L false a hal hL' hag hb'
        have hpre := merge_prefix C.cfg.uid L a
        rw [merge]
        refine ⟨hw, ?_, ?_, fun _ => hg (by simp)⟩
        · intro p hp
          rcases List.mem_cons.1 hp with rfl | hp
          · refine ⟨⟨(part_marker h1).1, (words_prose h2).1, good_iff.2 ⟨h2.caps, h2.dots, h2.dims⟩, (words_prose h2).2, ?_, ?_,
              ih.lead.over, ih.lead.good, ih.lead.calm⟩, ih.lead⟩
            · exact ⟨x, u, e, (plain_nows (h2.chars x (by rw [e]; simp)) hx1).1, fun hm hc => hx2 hc hm⟩
            · exact ⟨u', y, e', (plain_nows (h2.chars y (by rw [e']; simp)) hy).1⟩
          · exact ih.parts p hp
        · have hat : L ≠ [] → (merge C.cfg.uid a L).1 ≠ [] ∧ AtGap (merge C.cfg.uid a L).1 := by
            intro hne
            obtain ⟨g1, g2⟩ := gap_inner hp h5 (ha hne)
            obtain ⟨z, hz⟩ := hpre
            rw [← hz]
            exact ⟨by simp [g1], g2.append g1 z⟩
          cases hP : (merge C.cfg.uid a L).2 with
          | nil =>
            simp only [rawItems, List.map_cons, List.map_nil, Spaced]
            by_cases hne : L = []
            · subst hne; exact gap_last hp h5
            · obtain ⟨g1, g2⟩ := hat hne
              exact g2.append g1 _
          | cons q P =>
            have hne : L ≠ [] := by
              rintro rfl
              rw [merge] at hP; cases hP
            simp only [rawItems, List.map_cons, Spaced]
            refine ⟨hat hne, ?_, ?_⟩
            · rcases ih.start (by rw [hP]; simp) with h | ⟨c, p, h, hc⟩
              · rw [List.reverse_eq_nil_iff] at h; exact absurd h (hat hne).1
              · exact ⟨p.reverse, c, by rw [← List.reverse_reverse (merge C.cfg.uid a L).1, h]; simp, hc⟩
            · have := ih.spaced
              rw [hP] at this
              exact this

theorem MergeOk.text {C : Ctx} {q : Str × List Part} (h : MergeOk C true q) (hne : q.1 ++ rawText q.2 ≠ [])
    (hl : ∀ c, (q.1 ++ rawText q.2).getLast? = some c → c ≠ '\n') : TextOk C q.1 q.2 where
  over := h.lead.over
  good := h.lead.good
  calm := h.lead.calm
  keyed := h.lead.keyed
  parts := fun p hp => (h.parts p hp).1
  gapKeyed := fun p hp => (h.parts p hp).2.keyed
  spaced := h.spaced
  start := h.start
  last := hl
  lead := h.lead.lined
  gaps := fun p hp => (h.parts p hp).2.lined
  ne := hne

/-! ## What the text stands for -/

/-- A text set aside that has no placeholders. -/
theorem Rep.shelf {uid : Str} {σ : PState} {n : Nat} {v r h : Str} (hl : alLookup (shelfKey uid n) σ.shelf = some v)
    (hv : ':' ∉ v ∨ Sealed uid v) (hr : Rep uid σ r h) : Rep uid σ (shelfKey uid n ++ r) (v ++ h) := by
  rcases hv with hv | hv
  · have h6 : RepK uid σ 0 (fun _ => True) ([] ++ (v ++ [])) v := by
      have := (RepK.nil (uid := uid) (σ := σ) (d := 0) (P := fun _ => True)).text hv
      simpa using this
    exact RepK.key (a := []) (z := []) (d := 2) (e := 0) (by omega) (fun _ => trivial) hl (by simp) (by simp) h6 hr
  · exact hr.key hl hv

theorem Stands.rep {uid : Str} {σ : PState} {n : Nat} {v r h : Str} (hv : Stands uid σ n v) (hi : σ.refIndex < 2 ^ 32) {τ : PState}
    (hn : n ≤ σ.refIndex) (ha : Agrees uid σ τ) (hr : Rep uid τ r h) : Rep uid τ (shelfKey uid n ++ r) (v ++ h) := by
  rcases hv with ⟨h1, h2⟩ | ⟨m, o, a, z, h1, h2, h3, rfl, h5, h6⟩
  · exact hr.shelf (by rw [(ha n hn).2, h1]) h2
  · have h7 : RepK uid τ 0 (fun _ => True) ([] ++ ((a ++ '"' :: (urlTok uid m ++ z)) ++ [])) (a ++ '"' :: (o ++ z)) := by
      have := (RepK.nil (uid := uid) (σ := τ) (d := 0) (P := fun _ => True)).text h6
      have := (RepK.url (n := m) (o := o) (by omega) (by rw [(ha m h1).1, h2]) this).text h5
      simpa using this
    exact RepK.key (a := []) (z := []) (d := 2) (e := 0) (by omega) (fun _ => trivial) (by rw [(ha n hn).2, h3]) (by simp) (by simp) h7 hr

theorem merge_rep {C : Ctx} {base : Str} (D : DocCtx C base) {τ : PState} : ∀ (L : List (Slot × Str)) (w hw : Str),
    Rep C.cfg.uid τ (brk C.cfg.brTag w) hw → (∀ p ∈ L, Slot2 C p) →
    (∀ p ∈ L, ∀ n v, p.1 = .key n v → ∀ r h, Rep C.cfg.uid τ r h → Rep C.cfg.uid τ (shelfKey C.cfg.uid n ++ r) (v ++ h)) →
    PRep C.cfg.uid τ C.cfg.brTag (merge C.cfg.uid w L).1 (merge C.cfg.uid w L).2
      (hw ++ L.flatMap (fun p => p.1.html ++ brk C.cfg.brTag p.2))
  | [], w, hw, h, _, _ => by simpa [merge, PRep] using h
  | (s, a) :: L, w, hw, h, hL, hk => by
    obtain ⟨hp, hs⟩ := hL (s, a) (by simp)
    have hL' : ∀ p ∈ L, Slot2 C p := fun p hp => hL p (by simp [hp])
    have hk' : ∀ p ∈ L, ∀ n v, p.1 = .key n v → ∀ r h, Rep C.cfg.uid τ r h → Rep C.cfg.uid τ (shelfKey C.cfg.uid n ++ r) (v ++ h) :=
      fun p hp => hk p (by simp [hp])
    have ha : Rep C.cfg.uid τ (brk C.cfg.brTag a) (brk C.cfg.brTag a) := by
      have := (Rep.nil (uid := C.cfg.uid) (σ := τ)).text (brk_nocolon (brTag_nocolon C) (linesA_nocolon (prose_over hp)))
      simpa using this
    cases s with
    | key n v =>
      have hk1 := hk (.key n v, a) (by simp) n v rfl
      rw [show merge C.cfg.uid w ((.key n v, a) :: L) = merge C.cfg.uid (w ++ (Slot.str C.cfg.uid (.key n v) ++ a)) L from rfl]
      have h1 : Rep C.cfg.uid τ (brk C.cfg.brTag (w ++ (Slot.str C.cfg.uid (.key n v) ++ a))) (hw ++ (v ++ brk C.cfg.brTag a)) := by
        rw [brk_append, brk_append, show Slot.str C.cfg.uid (.key n v) = shelfKey C.cfg.uid n from rfl,
          brk_nonl (w := shelfKey C.cfg.uid n) (by rw [D.uid]; exact key_nonl D.plain n)]
        exact h.append (hk1 _ _ ha)
      have := merge_rep D L _ _ h1 hL' hk'
      simpa [Slot.html] using this
    | inl i =>
      cases i with
      | code t => exact hs.elim
      | verbatim t => exact hs.elim
      | link t x y z => exact hs.elim
      | marked m t =>
        rw [merge]
        refine ⟨hw, _, h, merge_rep D L a _ ha hL' hk', ?_⟩
        have hm := (part_marker hs.1).2
        simp [Slot.html, Spec.Inline.html, Spec.element, openTag, closeTag, hm]

/-! ## The first stages -/

theorem stage_id {sel : Slot → Option (Str × Str)} {uid : Str} : ∀ (L : List (Slot × Str)) (σ : PState),
    (∀ p ∈ L, sel p.1 = none) → stage sel uid σ L = (L, σ)
  | [], _, _ => rfl
  | (s, a) :: L, σ, h => by
    rw [stage_none (h (s, a) (by simp)), stage_id L σ (fun p hp => h p (by simp [hp]))]

theorem stage_count {sel : Slot → Option (Str × Str)} {uid : Str} {q : Slot × Str → Bool} (h1 : ∀ n v a, q (.key n v, a) = false)
    (h2 : ∀ s a, (sel s).isSome = true → q (s, a) = false) : ∀ (L : List (Slot × Str)) (σ : PState),
    (stage sel uid σ L).1.countP q = L.countP q
  | [], _ => rfl
  | (s, a) :: L, σ => by
    cases h : sel s with
    | none => rw [stage_none h]; simp [List.countP_cons, stage_count h1 h2 L σ]
    | some x =>
      obtain ⟨c, v⟩ := x
      rw [stage_some h]
      simp [List.countP_cons, stage_count h1 h2 L _, h1, h2 s a (by rw [h]; rfl)]

def slots (t : Spec.Marked) : List (Slot × Str) := t.parts.map (fun p => (.inl p.inl, p.after))

/-- After verbatim text has been set aside. -/
def slots1 (uid : Str) (σ : PState) (t : Spec.Marked) : List (Slot × Str) × PState := stage selEq uid σ (slots t)

/-- After code has been set aside, too. -/
def slots2 (uid : Str) (σ : PState) (t : Spec.Marked) : List (Slot × Str) × PState :=
  stage selAt uid (slots1 uid σ t).2 (slots1 uid σ t).1

/-- After links have been set aside. -/
def slots3 (uid : Str) (σ : PState) (t : Spec.Marked) : List (Slot × Str) × PState :=
  stageU selLink uid (slots2 uid σ t).2 (slots2 uid σ t).1

theorem slots_source (uid : Str) (t : Spec.Marked) : t.source = t.lead ++ slotsText uid (slots t) := by
  simp [Spec.Marked.source, slotsText, slots, List.flatMap_map, Slot.str]

theorem slots1_mem {uid : Str} {σ : PState} {t : Spec.Marked} {p : Slot × Str} (h : p ∈ (slots1 uid σ t).1) :
    ∃ q ∈ t.parts, q.after = p.2 ∧ ((∃ m x, q.inl = .marked m x ∧ p.1 = .inl (.marked m x)) ∨
      (∃ x, q.inl = .code x ∧ p.1 = .inl (.code x)) ∨ (∃ n v, q.inl = .verbatim v ∧ p.1 = .key n v) ∨
      ∃ x u r l, q.inl = .link x u r l ∧ p.1 = .inl (.link x u r l)) := by
  rcases stage_mem h with ⟨h1, h2⟩ | ⟨q, h1, n, c, v, h2, rfl⟩
  · obtain ⟨q, hq, rfl⟩ := List.mem_map.1 h1
    refine ⟨q, hq, rfl, ?_⟩
    cases hi : q.inl with
    | marked m x => exact .inl ⟨m, x, rfl, by simp [hi]⟩
    | code x => exact .inr (.inl ⟨x, rfl, by simp [hi]⟩)
    | verbatim x => simp [hi, selEq] at h2
    | link x u r l => exact .inr (.inr (.inr ⟨x, u, r, l, rfl, by simp [hi]⟩))
  · obtain ⟨q, hq, rfl⟩ := List.mem_map.1 h1
    refine ⟨q, hq, rfl, ?_⟩
    cases hi : q.inl with
    | marked m x => simp [hi, selEq] at h2
    | code x => simp [hi, selEq] at h2
    | verbatim x =>
      simp only [hi, selEq, Option.some.injEq, Prod.mk.injEq] at h2
      exact .inr (.inr (.inl ⟨n, v, by rw [h2.2], rfl⟩))
    | link x u r l => simp [hi, selEq] at h2

theorem code_html (x : Str) : (Spec.Inline.code x).html = t!"<code>" ++ encodeHtml x false false ++ t!"</code>" := by
  simp [Spec.Inline.html, Spec.element, escape_eq]

theorem slots2_mem {uid : Str} {σ : PState} {t : Spec.Marked} {p : Slot × Str} (h : p ∈ (slots2 uid σ t).1) :
    ∃ q ∈ t.parts, q.after = p.2 ∧ ((∃ m x, q.inl = .marked m x ∧ p.1 = .inl (.marked m x)) ∨
      (∃ n, p.1 = .key n q.inl.html ∧ ∀ m x, q.inl ≠ .marked m x) ∨
      ∃ x u r l, q.inl = .link x u r l ∧ p.1 = .inl (.link x u r l)) := by
  rcases stage_mem h with ⟨h1, h2⟩ | ⟨r, h1, n, c, v, h2, rfl⟩
  · obtain ⟨q, hq, ha, ⟨m, x, hi, hp⟩ | ⟨x, hi, hp⟩ | ⟨n, v, hi, hp⟩ | hl⟩ := slots1_mem h1
    · exact ⟨q, hq, ha, .inl ⟨m, x, hi, hp⟩⟩
    · rw [hp] at h2; cases h2
    · exact ⟨q, hq, ha, .inr (.inl ⟨n, by rw [hp, hi]; rfl, by rw [hi]; intro _ _ e; cases e⟩)⟩
    · exact ⟨q, hq, ha, .inr (.inr hl)⟩
  · obtain ⟨q, hq, ha, ⟨m, x, hi, hp⟩ | ⟨x, hi, hp⟩ | ⟨n, v, hi, hp⟩ | ⟨x, u, r, l, hi, hp⟩⟩ := slots1_mem h1
    · rw [hp] at h2; cases h2
    · rw [hp] at h2
      simp only [selAt, Option.some.injEq, Prod.mk.injEq] at h2
      refine ⟨q, hq, ha, .inr (.inl ⟨n, ?_, by rw [hi]; intro _ _ e; cases e⟩)⟩
      rw [hi, code_html, h2.2]
    · rw [hp] at h2; cases h2
    · rw [hp] at h2; cases h2

theorem selLink_html {s : Slot} {o a z : Str} (h : selLink s = some (o, a, z)) : a ++ '"' :: (o ++ z) = s.html := by
  obtain ⟨t, url, href, rel, rfl⟩ := selLink_some h
  simp only [selLink, Option.some.injEq, Prod.mk.injEq] at h
  obtain ⟨rfl, rfl, rfl⟩ := h
  cases rel <;> simp [Slot.html, Spec.Inline.html, Spec.linkTag, Spec.htmlAttr, relAttr]

theorem slots3_mem {uid : Str} {σ : PState} {t : Spec.Marked} {p : Slot × Str} (h : p ∈ (slots3 uid σ t).1) :
    ∃ q ∈ t.parts, q.after = p.2 ∧ ((∃ m x, q.inl = .marked m x ∧ p.1 = .inl (.marked m x)) ∨
      ∃ n, p.1 = .key n q.inl.html ∧ ∀ m x, q.inl ≠ .marked m x) := by
  rcases stageU_mem h with ⟨h1, h2⟩ | ⟨r, h1, n, o, a, z, h2, rfl⟩
  · obtain ⟨q, hq, ha, h3 | h3 | ⟨x, u, r, l, hi, hp⟩⟩ := slots2_mem h1
    · exact ⟨q, hq, ha, .inl h3⟩
    · exact ⟨q, hq, ha, .inr h3⟩
    · rw [hp] at h2; cases h2
  · have hh := selLink_html h2
    obtain ⟨x, u, y, l, hs⟩ := selLink_some h2
    obtain ⟨q, hq, ha, ⟨m, x, hi, hp⟩ | ⟨n, hp, -⟩ | ⟨x, u, r, l, hi, hp⟩⟩ := slots2_mem h1
    · rw [hp] at hs; cases hs
    · rw [hp] at hs; cases hs
    · refine ⟨q, hq, ha, .inr ⟨n, ?_, by rw [hi]; intro _ _ e; cases e⟩⟩
      rw [hh, hp, hi]; rfl

theorem slots_after (t : Spec.Marked) : (slots t).map (·.2) = t.parts.map (·.after) := by simp [slots]

theorem slots1_after (uid : Str) (σ : PState) (t : Spec.Marked) : (slots1 uid σ t).1.map (·.2) = t.parts.map (·.after) := by
  rw [slots1, stage_after, slots, List.map_map]; rfl

theorem slots2_after (uid : Str) (σ : PState) (t : Spec.Marked) : (slots2 uid σ t).1.map (·.2) = t.parts.map (·.after) := by
  rw [slots2, stage_after, slots1_after]

theorem slots3_after (uid : Str) (σ : PState) (t : Spec.Marked) : (slots3 uid σ t).1.map (·.2) = t.parts.map (·.after) := by
  rw [slots3, stageU_after, slots2_after]

theorem slots2_html (uid : Str) (σ : PState) (t : Spec.Marked) :
    (slots2 uid σ t).1.map (fun p => (p.1.html, p.2)) = t.parts.map (fun p => (p.inl.html, p.after)) := by
  rw [slots2, stage_html, slots1, stage_html, slots, List.map_map]
  · rfl
  · intro s c v h
    unfold selEq at h
    split at h
    · simp at h; rw [← h.2]; rfl
    · cases h
  · intro s c v h
    unfold selAt at h
    split at h
    · simp only [Option.some.injEq, Prod.mk.injEq] at h
      rw [← h.2, ← code_html]; rfl
    · cases h

theorem slots3_html (uid : Str) (σ : PState) (t : Spec.Marked) :
    (slots3 uid σ t).1.map (fun p => (p.1.html, p.2)) = t.parts.map (fun p => (p.inl.html, p.after)) := by
  rw [slots3, stageU_html (fun _ _ _ _ h => selLink_html h), slots2_html]

theorem dropLast_after {L : List (Slot × Str)} {ps : List Spec.Part} {Q : Str → Prop} (h : L.map (·.2) = ps.map (·.after))
    (hb : ∀ p ∈ ps.dropLast, Q p.after) : ∀ p ∈ L.dropLast, Q p.2 := by
  intro p hp
  have : p.2 ∈ (L.dropLast).map (·.2) := List.mem_map_of_mem hp
  rw [List.map_dropLast, h, ← List.map_dropLast] at this
  obtain ⟨q, hq, e⟩ := List.mem_map.1 this
  rw [← e]; exact hb q hq

theorem ne_after {L : List (Slot × Str)} {ps : List Spec.Part} (h : L.map (·.2) = ps.map (·.after)) (hne : L ≠ []) : ps ≠ [] := by
  rintro rfl
  simp at h; exact hne h

def isMarked : Slot × Str → Bool
  | (.inl (.marked _ _), _) => true
  | _ => false

theorem selEq_other {s : Slot} {a : Str} (h : (selEq s).isSome = true) : isMarked (s, a) = false ∧ (selAt s).isSome = false ∧ (selLink s).isSome = false := by
  unfold selEq at h
  split at h
  · exact ⟨rfl, rfl, rfl⟩
  · cases h

theorem selAt_other {s : Slot} {a : Str} (h : (selAt s).isSome = true) : isMarked (s, a) = false ∧ (selLink s).isSome = false := by
  unfold selAt at h
  split at h
  · exact ⟨rfl, rfl⟩
  · cases h

theorem selLink_other {s : Slot} {a : Str} (h : (selLink s).isSome = true) : isMarked (s, a) = false := by
  unfold selLink at h
  split at h
  · rfl
  · cases h

/-- Of the kinds of elements, some use one number and the others two. -/
theorem slots3_index (uid : Str) (σ : PState) (t : Spec.Marked) (w : Str) :
    (slots3 uid σ t).2.refIndex + 2 * (merge uid w (slots3 uid σ t).1).2.length ≤ σ.refIndex + 2 * t.parts.length := by
  have h1 := (stage_grow (sel := selEq) (uid := uid) (slots t) σ).2.2
  have h2 := (stage_grow (sel := selAt) (uid := uid) (slots1 uid σ t).1 (slots1 uid σ t).2).2.2
  have h2' := (stageU_grow (sel := selLink) (uid := uid) (slots2 uid σ t).1 (slots2 uid σ t).2).2.2
  have h3 : (merge uid w (slots3 uid σ t).1).2.length ≤ (slots3 uid σ t).1.countP isMarked := by
    refine Nat.le_trans (merge_length uid (slots3 uid σ t).1 w) (Nat.le_of_eq (congrArg (fun f => List.countP f _) (funext fun p => ?_)))
    obtain ⟨s, a⟩ := p
    cases s with
    | key n v => rfl
    | inl i => cases i <;> rfl
  have e2 : (slots1 uid σ t).1.countP (fun p => (selAt p.1).isSome) = (slots t).countP (fun p => (selAt p.1).isSome) :=
    stage_count (fun _ _ _ => rfl) (fun s a h => (selEq_other (a := a) h).2.1) _ _
  have e2' : (slots2 uid σ t).1.countP (fun p => (selLink p.1).isSome) = (slots t).countP (fun p => (selLink p.1).isSome) := by
    rw [slots2, stage_count (fun _ _ _ => rfl) (fun s a h => (selAt_other (a := a) h).2), slots1,
      stage_count (fun _ _ _ => rfl) (fun s a h => (selEq_other (a := a) h).2.2)]
  have e3 : (slots3 uid σ t).1.countP isMarked = (slots t).countP isMarked := by
    rw [slots3, stageU_count (fun _ _ _ => rfl) (fun s a h => selLink_other h), slots2,
      stage_count (fun _ _ _ => rfl) (fun s a h => (selAt_other h).1), slots1,
      stage_count (fun _ _ _ => rfl) (fun s a h => (selEq_other h).1)]
  have e4 : ∀ ps : List Spec.Part, let L : List (Slot × Str) := ps.map (fun p => (.inl p.inl, p.after))
      L.countP (fun p => (selEq p.1).isSome) + L.countP (fun p => (selAt p.1).isSome) + 2 * L.countP (fun p => (selLink p.1).isSome) +
      2 * L.countP isMarked ≤ 2 * ps.length := by
    intro ps
    induction ps with
    | nil => simp
    | cons p ps ih =>
      simp only [List.map_cons, List.countP_cons, List.length_cons] at ih ⊢
      generalize List.countP (fun p => (selEq p.1).isSome) (ps.map (fun p => (Slot.inl p.inl, p.after))) = A at ih ⊢
      generalize List.countP (fun p => (selAt p.1).isSome) (ps.map (fun p => (Slot.inl p.inl, p.after))) = B at ih ⊢
      generalize List.countP (fun p => (selLink p.1).isSome) (ps.map (fun p => (Slot.inl p.inl, p.after))) = B at ih ⊢
      generalize List.countP _ (ps.map (fun p => (Slot.inl p.inl, p.after))) = D at ih ⊢
      cases p.inl <;> simp [selEq, selAt, selLink, isMarked] <;> omega
  have e5 := e4 t.parts
  simp only at e5
  rw [← slots] at e5
  rw [← slots3] at h2'
  rw [← slots2] at h2
  rw [← slots1] at h1
  omega

/-! ### Where nothing is found -/

theorem free_stop {n t : Str} {d : Char} (h : ¬ n <:+: t) (hd : d ∉ n) : Free n (t ++ [d]) := by
  intro u v e hv
  rcases List.eq_nil_or_concat v with rfl | ⟨v', y, rfl⟩
  · exact absurd rfl hv
  rw [List.concat_eq_append] at e ⊢
  rw [← List.append_assoc] at e
  obtain ⟨e1, e2⟩ := List.append_inj' e rfl
  simp at e2
  subst e2
  refine ⟨?_, ?_⟩
  · rintro ⟨x, hx⟩
    rcases List.eq_nil_or_concat x with rfl | ⟨x', z, rfl⟩
    · rw [List.append_nil] at hx
      exact hd (by rw [← hx]; simp)
    · rw [List.concat_eq_append, ← List.append_assoc] at hx
      obtain ⟨e3, -⟩ := List.append_inj' hx rfl
      exact h ⟨u, x', by rw [e1, e3]; simp⟩
  · rintro ⟨x, hx⟩
    exact hd (by rw [hx]; simp)

theorem free_slots {uid n : Str} : ∀ {L : List (Slot × Str)}, (∀ p ∈ L, Free n (p.1.str uid) ∧ Free n p.2) → Free n (slotsText uid L)
  | [], _ => Free.nil
  | p :: L, h => by
    rw [slotsText_cons]
    exact (h p (by simp)).1.append ((h p (by simp)).2.append (free_slots (fun q hq => h q (by simp [hq]))))

theorem marked_nochar {up : Char → Bool} {lite : Bool} {m x a : Str} (h : (Spec.Inline.marked m x).Ok up lite a) {c : Char}
    (h1 : c ∉ rawA.ascii) (h2 : c.toNat < 128) : c ∉ (Spec.Inline.marked m x).source := by
  have hm : ∀ m ∈ markers, ∀ c ∈ m, c ∈ rawA.ascii := by decide
  have hm' : c ∉ m := fun hc => h1 (hm m (part_marker h.1).1 c hc)
  have hx : c ∉ x := fun hc => Alpha.not_mem h1 h2 (linesA_raw ((words_prose h.2.1).1 c hc))
  simp [Spec.Inline.source, hm', hx]

theorem marked_nl {up : Char → Bool} {lite : Bool} {m x a : Str} (h : (Spec.Inline.marked m x).Ok up lite a) :
    '\n' ∉ (Spec.Inline.marked m x).source := by
  have hm : ∀ m ∈ markers, '\n' ∉ m := by decide
  simp [Spec.Inline.source, hm m (part_marker h.1).1, (words_prose h.2.1).2]

theorem prose_nochar {up : Char → Bool} {a : Str} (h : Spec.Prose up a) {c : Char} (h1 : c ∉ linesA.ascii) (h2 : c.toNat < 128) : c ∉ a :=
  fun hc => Alpha.not_mem h1 h2 (prose_over h c hc)

theorem key_nochar {base : Str} (hb : Spec.PlainBase base) {c : Char} (h1 : c ∉ mixA.ascii) (h2 : c.toNat < 128) (n : Nat) :
    c ∉ shelfKey (uidOf base) n := fun hc => Alpha.not_mem h1 h2 (key_mix hb n c hc)

/-! ### Links -/

theorem asciiAlnum_of {c : Char} (h : (65 ≤ c.toNat ∧ c.toNat ≤ 90) ∨ (97 ≤ c.toNat ∧ c.toNat ≤ 122) ∨ (48 ≤ c.toNat ∧ c.toNat ≤ 57)) :
    c ∈ asciiAlnum := by
  have : ∀ n < 128, (65 ≤ n ∧ n ≤ 90) ∨ (97 ≤ n ∧ n ≤ 122) ∨ (48 ≤ n ∧ n ≤ 57) → Char.ofNat n ∈ asciiAlnum := by decide
  have h1 := this c.toNat (by omega) h
  rwa [Char.ofNat_toNat] at h1

theorem splitOnce_absent {d : Char} : ∀ {s : Str}, d ∉ s → splitOnce d s = none
  | [], _ => rfl
  | c :: s, h => by
    simp only [List.mem_cons, not_or] at h
    rw [splitOnce, splitOnce_absent h.2]
    have : (c == d) = false := by simp; exact fun e => h.1 e.symm
    simp [this]

theorem urlChar_mem {c : Char} (h : Spec.urlChar c = true) : c ∈ asciiAlnum ++ t!"/.:-_?=#%+~," := by
  simp only [Spec.urlChar, Bool.or_eq_true, Bool.and_eq_true, decide_eq_true_eq, List.contains_iff_mem] at h
  rcases h with ((h | h) | h) | h
  · exact List.mem_append_left _ (asciiAlnum_of (by omega))
  · exact List.mem_append_left _ (asciiAlnum_of (by omega))
  · exact List.mem_append_left _ (asciiAlnum_of (by omega))
  · exact List.mem_append_right _ h

theorem link_over {up : Char → Bool} {t url href a : Str} {rel : Option Str} (h : Spec.LinkOk up t url href rel a) :
    linkA.Over (Spec.Inline.link t url href rel).source := by
  intro c hc
  simp only [Spec.Inline.source, List.mem_append] at hc
  rcases hc with ((hc | hc) | hc) | hc
  · exact .inl ((by decide : ∀ c ∈ ['"'], c ∈ linkA.ascii) c hc)
  · exact Alpha.mono (by decide) rfl ((words_prose h.words).1 c hc)
  · exact .inl ((by decide : ∀ c ∈ ['"', ':'], c ∈ linkA.ascii) c hc)
  · exact .inl ((by decide : ∀ c ∈ asciiAlnum ++ t!"/.:-_?=#%+~,", c ∈ linkA.ascii) c (urlChar_mem (h.chars c hc)))

theorem link_nochar {up : Char → Bool} {t url href a : Str} {rel : Option Str} (h : Spec.LinkOk up t url href rel a) {c : Char}
    (h1 : c ∉ linkA.ascii) (h2 : c.toNat < 128) : c ∉ (Spec.Inline.link t url href rel).source :=
  fun hc => Alpha.not_mem h1 h2 (link_over h c hc)

theorem link_nonl {up : Char → Bool} {t url href a : Str} {rel : Option Str} (h : Spec.LinkOk up t url href rel a) :
    '\n' ∉ (Spec.Inline.link t url href rel).source := by
  have h1 := (words_prose h.words).2
  have h2 : '\n' ∉ url := fun hc => absurd (h.chars _ hc) (by decide)
  simp [Spec.Inline.source, h1, h2]

theorem link_free {up : Char → Bool} {t url href a : Str} {rel : Option Str} (h : Spec.LinkOk up t url href rel a) :
    Free t!"==" (Spec.Inline.link t url href rel).source := by
  obtain ⟨u, c, e, hc⟩ := h.urlEnd
  have h1 : '=' ∉ t := fun hm => Alpha.not_mem (A := linesA) (by decide) (by decide) ((words_prose h.words).1 _ hm)
  have h2 : Free t!"==" (u ++ [c]) := by
    refine free_stop (fun hi => h.noeq (hi.trans ⟨[], [c], by rw [e]; simp⟩)) ?_
    simp only [List.mem_cons, List.not_mem_nil, or_false, or_self]
    rintro rfl
    revert hc; decide
  rw [show (Spec.Inline.link t url href rel).source = (['"'] ++ t ++ ['"', ':']) ++ (u ++ [c]) by rw [← e]; rfl]
  exact (Free.of_head (c := '=') rfl (by simp [h1])).append h2

theorem resolves_to {C : Ctx} {url href : Str} (h : Spec.Resolves C.E.urlParse C.E.urlJoin C.cfg.restricted url href) : LinkTo C url href := by
  have hs : C.cfg.schemes = Spec.allowedSchemes C.cfg.restricted := by
    unfold Cfg.schemes Spec.allowedSchemes; cases C.cfg.restricted <;> rfl
  rcases h with ⟨sch, h1, h2⟩ | ⟨h1, h2, h3, h4, rfl⟩
  · have : UrlBits.parse C.E url = .abs sch href := by simp [UrlBits.parse, h1]
    simp [LinkTo, this, UrlBits.scheme, UrlBits.toStr, hs, h2]
  · obtain ⟨j, hj⟩ := Option.isSome_iff_exists.1 h2
    have : UrlBits.parse C.E href = .rel j href := by simp [UrlBits.parse, h1, hj]
    refine ⟨by simp [this, UrlBits.scheme], ?_⟩
    rw [this]
    have e1 : splitOnce '?' href = none := splitOnce_absent h3
    have e2 : rfindChar '#' href = none := by rw [rfindChar, splitOnce_absent (by simpa using h4)]; rfl
    simp only [UrlBits.toStr, e1, e2]
    split
    · rename_i e; cases e
    · rfl

theorem enc_spacers {t : Str} (h : ∀ c ∈ t, c ≠ '\n' ∧ c ≠ '\r' ∧ c ≠ '\t') : encodeHtml t true true = Spec.escape true t := by
  rw [escape_eq]
  induction t with
  | nil => rfl
  | cons c t ih =>
    have hc := h c (by simp)
    have := ih (fun d hd => h d (List.mem_cons_of_mem _ hd))
    rw [encodeHtml] at this ⊢
    rw [encodeHtml, List.flatMap_cons, List.flatMap_cons, this]
    simp [encChar, hc, encodeHtml]

theorem link_slot {C : Ctx} {base : Str} (D : DocCtx C base) {t url href a : Str} {rel : Option Str} (h : Spec.LinkOk C.U.isLu t url href rel a)
    (hr : Spec.Resolves C.E.urlParse C.E.urlJoin C.cfg.restricted url href) (hrel : rel = C.cfg.rel) : LinkSlot C t url href rel a where
  text := by
    obtain ⟨h1, h2⟩ := words_prose h.words
    have hns : ∀ c ∈ t, c ≠ ' ' → isWs c = false := fun c hc hne => (plain_nows (h.words.chars c hc) hne).1
    have hl : ∀ c, t.getLast? = some c → isWs c = false := by
      intro c hc
      obtain ⟨u, e⟩ := List.getLast?_eq_some_iff.1 hc
      refine hns c (by rw [e]; simp) ?_
      rintro rfl
      exact h.last u e
    obtain ⟨c, u, e, hc, -⟩ := h.first
    refine ⟨h1, h2, ⟨c, u, e, hns c (by rw [e]; simp) hc⟩, hl, h.dollar, quiet_of D.uni h1 h.words.caps h.words.dots h.words.dims ?_⟩
    rintro c hc rfl
    exact absurd (hl _ hc) (by decide)
  second := by
    intro c u e
    obtain ⟨c', u', e', -, h2⟩ := h.first
    rw [e] at e'
    injection e' with e1 e2
    rw [e2]; exact h2
  address := by
    refine ⟨fun c hc => (by decide : ∀ c ∈ asciiAlnum ++ t!"/.:-_?=#%+~,", c ∉ t!"&]") c (urlChar_mem (h.chars c hc)), ?_⟩
    intro c hc
    obtain ⟨u, x, e, hx⟩ := h.urlEnd
    rw [e, List.getLast?_concat] at hc
    injection hc with hc
    subst hc
    have hm : x ∈ asciiAlnum ++ t!"/" := by
      rcases hx with hx | hx | hx | hx
      · exact List.mem_append_left _ (asciiAlnum_of (by omega))
      · exact List.mem_append_left _ (asciiAlnum_of (by omega))
      · exact List.mem_append_left _ (asciiAlnum_of (by omega))
      · subst hx; exact List.mem_append_right _ (by decide)
    exact (by decide : ∀ c ∈ asciiAlnum ++ t!"/", c ∉ t!"!?:;.,>])") x hm
  chars := fun c hc => (by decide : ∀ c ∈ asciiAlnum ++ t!"/.:-_?=#%+~,", isWs c = false ∧ c ∉ t!"|^'\"*") c (urlChar_mem (h.chars c hc))
  ne := by
    obtain ⟨u, x, e, -⟩ := h.urlEnd
    rw [e]; simp
  leads := resolves_to hr
  plain := enc_spacers h.href
  relation := hrel
  relOk := by
    intro r e c hc
    have := h.rel r e c hc
    simp only [List.mem_cons, List.not_mem_nil, or_false, not_or]
    refine ⟨?_, ?_, ?_, ?_, ?_, ?_, ?_, ?_⟩ <;> (rintro rfl; revert this; decide)
  after := by
    have := h.follow
    have hp : ∀ c, c = '.' ∨ c = ',' → ∀ x ∈ [c], x ∈ t!"!?:;.," := by
      intro c hc x hx
      simp at hx; subst hx
      rcases hc with rfl | rfl <;> decide
    have hw : ∀ c, c = ' ' ∨ c = '\n' → isWs c = true := by
      rintro c (rfl | rfl) <;> decide
    match a, this with
    | [], _ => exact ⟨[], [], rfl, by simp, .inl rfl⟩
    | [c], h =>
      rcases h with h | h | h | h
      · exact ⟨[], [c], rfl, by simp, .inr ⟨c, [], rfl, hw c (.inl h)⟩⟩
      · exact ⟨[], [c], rfl, by simp, .inr ⟨c, [], rfl, hw c (.inr h)⟩⟩
      · exact ⟨[c], [], rfl, hp c (.inl h), .inl rfl⟩
      · exact ⟨[c], [], rfl, hp c (.inr h), .inl rfl⟩
    | c :: d :: u, h =>
      rcases h with h | h | ⟨h, h'⟩
      · exact ⟨[], c :: d :: u, rfl, by simp, .inr ⟨c, d :: u, rfl, hw c (.inl h)⟩⟩
      · exact ⟨[], c :: d :: u, rfl, by simp, .inr ⟨c, d :: u, rfl, hw c (.inr h)⟩⟩
      · exact ⟨[c], d :: u, rfl, hp c h, .inr ⟨d, u, rfl, hw d h'⟩⟩

theorem early_slots {C : Ctx} {base : Str} (D : DocCtx C base) {t : Spec.Marked} (h : t.Ok C.U.isLu C.cfg.lite) {w : Str} {P : List Part}
    (hR : t.Resolved (Spec.Resolves C.E.urlParse C.E.urlJoin C.cfg.restricted) C.cfg.rel)
    (σ : PState) (hT : InlineOk C w P) (e : w ++ rawText P = t.lead ++ slotsText C.cfg.uid (slots3 C.cfg.uid σ t).1) :
    Runs C (grafEarly C t.source) (w ++ rawText P) σ (slots3 C.cfg.uid σ t).2 := by
  have he := (hT.mild D.uni).early
  have hlink : containsStr (C.cfg.uid ++ t!"linkStartMarker:") (w ++ rawText P) = false := by
    have hk := keyed_raw hT.keyed hT.parts hT.gapKeyed
    rw [D.uid] at hk ⊢
    exact hk.clean D.plain ⟨'l', _, rfl, by decide⟩
  rw [e] at he hlink ⊢
  simp only [earlyPatterns, List.mem_cons, List.not_mem_nil, or_false, forall_eq_or_imp, forall_eq] at he
  obtain ⟨-, -, -, -, -, -, -, -, -, -, e11⟩ := he
  have hb : ∀ p ∈ t.parts.dropLast, ∃ u x, p.after = u ++ [x] ∧ isWs x = true := fun p hp => ends_ws (h.between p hp)
  have hlead : t.parts ≠ [] → t.lead = [] ∨ ∃ u x, t.lead = u ++ [x] ∧ isWs x = true := fun hne => (h.before hne).imp id ends_ws
  have hafter : ∀ q ∈ t.parts, ∀ c, c ∉ linesA.ascii → c.toNat < 128 → c ∉ q.after := fun q hq c => prose_nochar (h.parts q hq).after
  have hclose : ∀ q ∈ t.parts, ∀ c ∈ q.after, c ∉ t!"])}" := fun q hq c hc hm => by
    have : ∀ c ∈ t!"])}", c ∉ linesA.ascii ∧ c.toNat < 128 := by decide
    exact hafter q hq c (this c hm).1 (this c hm).2 hc
  -- in lite mode there is nothing to set aside
  have hlite : C.cfg.lite = true → ∀ q ∈ t.parts, selEq (.inl q.inl) = none ∧ selAt (.inl q.inl) = none := by
    intro hl q hq
    have := (h.parts q hq).inl
    cases hi : q.inl with
    | marked m x => exact ⟨rfl, rfl⟩
    | link x u r l => exact ⟨rfl, rfl⟩
    | code x => rw [hi] at this; rw [hl] at this; cases this.1
    | verbatim x => rw [hi] at this; rw [hl] at this; cases this.1
  have hl1 : C.cfg.lite = true → slots1 C.cfg.uid σ t = (slots t, σ) := by
    intro hl
    refine stage_id _ _ ?_
    intro p hp
    obtain ⟨q, hq, rfl⟩ := List.mem_map.1 hp
    exact (hlite hl q hq).1
  have hl2 : C.cfg.lite = true → slots2 C.cfg.uid σ t = slots1 C.cfg.uid σ t := by
    intro hl
    refine stage_id _ _ ?_
    intro p hp
    rw [hl1 hl] at hp
    obtain ⟨q, hq, rfl⟩ := List.mem_map.1 hp
    exact (hlite hl q hq).2
  -- the text before links are looked for
  have hA2 : linkA.Over (t.lead ++ slotsText C.cfg.uid (slots2 C.cfg.uid σ t).1) := by
    rw [Alpha.Over.append]
    refine ⟨fun c hc => Alpha.mono (by decide) rfl (prose_over h.lead c hc), ?_⟩
    intro c hc
    obtain ⟨p, hp, hc⟩ := List.mem_flatMap.1 hc
    obtain ⟨q, hq, ha, hp⟩ := slots2_mem hp
    have hok := (h.parts q hq).inl
    rcases List.mem_append.1 hc with hc | hc
    · rcases hp with ⟨m, x, hi, hp⟩ | ⟨n, hp, -⟩ | ⟨x, u, r, l, hi, hp⟩
      · rw [hi] at hok; rw [hp] at hc
        have hm : ∀ m ∈ markers, ∀ c ∈ m, c ∈ linkA.ascii := by decide
        simp only [Slot.str, Spec.Inline.source, List.mem_append] at hc
        rcases hc with (hc | hc) | hc
        · exact .inl (hm m (part_marker hok.1).1 c hc)
        · exact Alpha.mono (by decide) rfl ((words_prose hok.2.1).1 c hc)
        · exact .inl (hm m (part_marker hok.1).1 c hc)
      · rw [hp, show Slot.str C.cfg.uid (.key n q.inl.html) = shelfKey C.cfg.uid n from rfl, D.uid] at hc
        exact Alpha.mono (by decide) rfl (key_mix D.plain n c hc)
      · rw [hi] at hok; rw [hp] at hc
        exact link_over hok c hc
    · rw [← ha] at hc
      exact Alpha.mono (by decide) rfl (prose_over (h.parts q hq).after c hc)
  have hneed : ∀ r ∈ [SP_PRE_RE, SP_COMMENT_RE, RESTRICTED_URLREF_RE, UNRESTRICTED_URLREF_RE],
      r.search C.U [] (t.lead ++ slotsText C.cfg.uid (slots2 C.cfg.uid σ t).1) = none := fun r hr =>
    Re.need_search D.uni linkA_wf (List.all_eq_true.1 linkA_need r hr) hA2 _
  simp only [List.mem_cons, List.not_mem_nil, or_false, forall_eq_or_imp, forall_eq] at hneed
  obtain ⟨e5, e6, e7, e8⟩ := hneed
  have hLk : ∀ p ∈ (slots2 C.cfg.uid σ t).1, LinksOk C p := by
    intro p hp
    obtain ⟨q, hq, ha, hp⟩ := slots2_mem hp
    have hok := (h.parts q hq).inl
    have hres := hR q hq
    refine ⟨?_, ?_, ?_⟩
    · rw [← ha]
      exact ⟨hafter q hq ':' (by decide) (by decide), hafter q hq '"' (by decide) (by decide), hafter q hq '[' (by decide) (by decide)⟩
    · intro hs
      rcases hp with ⟨m, x, hi, hp⟩ | ⟨n, hp, -⟩ | ⟨x, u, r, l, hi, hp⟩
      · rw [hi] at hok; rw [hp]
        have hc : ':' ∉ (Spec.Inline.marked m x).source := by
          have hm : ∀ m ∈ markers, ':' ∉ m := by decide
          have h1 := hm m (part_marker hok.1).1
          have h2 := linesA_nocolon (words_prose hok.2.1).1
          simp [Spec.Inline.source, h1, h2]
        exact ⟨keyed_text hc, marked_nochar hok (by decide) (by decide), marked_nochar hok (by decide) (by decide)⟩
      · rw [hp, show Slot.str C.cfg.uid (.key n q.inl.html) = shelfKey C.cfg.uid n from rfl]
        refine ⟨?_, ?_, ?_⟩
        · have := Keyed.key (uid := C.cfg.uid) (n := n) (.nil)
          simpa using this
        · rw [D.uid]; exact key_nochar D.plain (by decide) (by decide) n
        · rw [D.uid]; exact key_nochar D.plain (by decide) (by decide) n
      · rw [hp] at hs; cases hs
    · intro x u r l e
      rcases hp with ⟨m, x', hi, hp⟩ | ⟨n, hp, -⟩ | ⟨x', u', r', l', hi, hp⟩
      · rw [hp] at e; cases e
      · rw [hp] at e; cases e
      · rw [hp] at e
        injection e with e
        rw [hi, e, ha] at hok
        rw [hi, e] at hres
        exact link_slot D hok hres.1 hres.2
  have hgap : GapOk C.cfg.uid t.lead :=
    ⟨keyed_text (prose_nochar h.lead (by decide) (by decide)), prose_nochar h.lead (by decide) (by decide), prose_nochar h.lead (by decide) (by decide)⟩
  have e9 : QUOTED_RE.search C.U [] (t.lead ++ slotsText C.cfg.uid (slots2 C.cfg.uid σ t).1) = none := by
    obtain ⟨g1, g2⟩ := linkMerge_lk (slots2 C.cfg.uid σ t).1 t.lead hLk hgap.quote
    rw [← linkMerge_text] at hA2 ⊢
    exact lk_quoted_none g1 g2 (linkMerge_second _ _ hLk) hA2
  unfold grafEarly
  -- verbatim text
  refine Runs.bind (a := t.lead ++ slotsText C.cfg.uid (slots1 C.cfg.uid σ t).1) (σ' := (slots1 C.cfg.uid σ t).2)
    (Runs.unless (fun hl => ?_) (fun hl => ?_)) ?_
  · unfold noTextile
    refine Runs.bind (a := t.source) (σ' := σ) (Runs.none ?_ σ) ?_
    · rw [SP_NOTEXTILE_shape]
      refine sp_search_none (by simp) (not_contains_of_free (by simp) ?_)
      rw [slots_source C.cfg.uid]
      refine (Free.of_head (c := '<') rfl (prose_nochar h.lead (by decide) (by decide))).append (free_slots ?_)
      intro p hp
      obtain ⟨q, hq, rfl⟩ := List.mem_map.1 hp
      refine ⟨?_, Free.of_head (c := '<') rfl (hafter q hq '<' (by decide) (by decide))⟩
      have hok := (h.parts q hq).inl
      simp only [Slot.str]
      cases hi : q.inl with
      | marked m x =>
        rw [hi] at hok
        exact Free.of_head (c := '<') rfl (marked_nochar hok (by decide) (by decide))
      | code x =>
        rw [hi] at hok
        rw [show (Spec.Inline.code x).source = ['@'] ++ (x ++ ['@']) by simp [Spec.Inline.source]]
        exact (Free.of (by decide)).append (free_stop hok.2.1.notag (by decide))
      | verbatim x =>
        rw [hi] at hok
        rw [show (Spec.Inline.verbatim x).source = ['=', '='] ++ ((x ++ ['=']) ++ ['=']) by simp [Spec.Inline.source]]
        exact (Free.of (by decide)).append ((free_stop hok.2.1.notag (by decide)).append (Free.of (by decide)))
      | link x u r l =>
        rw [hi] at hok
        exact Free.of_head (c := '<') rfl (link_nochar hok (by decide) (by decide))
    · rw [slots_source C.cfg.uid]
      refine runs_eq ?_ (Free.of_head (c := '=') rfl (prose_nochar h.lead (by decide) (by decide))) ?_ ?_
      · intro p hp
        obtain ⟨q, hq, rfl⟩ := List.mem_map.1 hp
        have hok := (h.parts q hq).inl
        refine ⟨Free.of_head (c := '=') rfl (hafter q hq '=' (by decide) (by decide)), hclose q hq, ?_, ?_⟩
        · intro hs
          simp only [Slot.str]
          cases hi : q.inl with
          | marked m x =>
            rw [hi] at hok
            exact Free.of_head (c := '=') rfl (marked_nochar hok (by decide) (by decide))
          | code x =>
            rw [hi] at hok
            rw [show (Spec.Inline.code x).source = ['@'] ++ (x ++ ['@']) by simp [Spec.Inline.source]]
            exact (Free.of (by decide)).append (free_stop hok.2.1.noeq (by decide))
          | verbatim x => simp [hi, selEq] at hs
          | link x u r l =>
            rw [hi] at hok
            exact link_free hok
        · intro c v hs
          cases hi : q.inl with
          | marked m x => simp [hi, selEq] at hs
          | code x => simp [hi, selEq] at hs
          | link x u r l => simp [hi, selEq] at hs
          | verbatim x =>
            rw [hi] at hok
            simp only [hi, selEq, Option.some.injEq, Prod.mk.injEq] at hs
            obtain ⟨rfl, rfl⟩ := hs
            refine ⟨by simp [Slot.str, hi, Spec.Inline.source], ?_⟩
            intro a y r ea hy hp
            match y, hy with
            | [z], _ =>
              simp only [List.cons_append, List.nil_append, List.cons_prefix_cons] at hp
              exact hok.2.2.1 a (by rw [ea, hp.1])
            | z :: z' :: y, _ =>
              simp only [List.cons_append, List.cons_prefix_cons] at hp
              exact hok.2.1.noeq ⟨a, y, by rw [ea, ← hp.1, ← hp.2.1]; simp⟩
      · exact fun hne => hlead (ne_after (slots_after t) hne)
      · exact dropLast_after (Q := fun a => ∃ u x, a = u ++ [x] ∧ isWs x = true) (slots_after t) hb
  · rw [hl1 hl, ← slots_source]; exact ⟨rfl, rfl⟩
  -- code
  refine Runs.bind (a := t.lead ++ slotsText C.cfg.uid (slots2 C.cfg.uid σ t).1) (σ' := (slots2 C.cfg.uid σ t).2)
    (Runs.unless (fun hl => ?_) (fun hl => ?_)) ?_
  · unfold code
    refine Runs.bind (a := t.lead ++ slotsText C.cfg.uid (slots1 C.cfg.uid σ t).1) (σ' := (slots1 C.cfg.uid σ t).2) (Runs.none ?_ _) ?_
    · rw [SP_CODE_shape]
      refine sp_search_none (by simp) (not_contains_of_free (by simp) ?_)
      refine (Free.of_head (c := '<') rfl (prose_nochar h.lead (by decide) (by decide))).append (free_slots ?_)
      intro p hp
      obtain ⟨q, hq, ha, ⟨m, x, hi, hp⟩ | ⟨x, hi, hp⟩ | ⟨n, v, hi, hp⟩ | ⟨x, u, r, l, hi, hp⟩⟩ := slots1_mem hp
      all_goals
        have hok := (h.parts q hq).inl
        rw [hi] at hok
        rw [← ha, hp]
        refine ⟨?_, Free.of_head (c := '<') rfl (hafter q hq '<' (by decide) (by decide))⟩
      · exact Free.of_head (c := '<') rfl (marked_nochar hok (by decide) (by decide))
      · rw [show Slot.str C.cfg.uid (.inl (.code x)) = ['@'] ++ (x ++ ['@']) by simp [Slot.str, Spec.Inline.source]]
        exact (Free.of (by decide)).append (free_stop hok.2.2.2 (by decide))
      · rw [show Slot.str C.cfg.uid (.key n v) = shelfKey C.cfg.uid n from rfl, D.uid]
        exact Free.of_head (c := '<') rfl (key_nochar D.plain (by decide) (by decide) n)
      · exact Free.of_head (c := '<') rfl (link_nochar hok (by decide) (by decide))
    · refine Runs.bind (a := t.lead ++ slotsText C.cfg.uid (slots2 C.cfg.uid σ t).1) (σ' := (slots2 C.cfg.uid σ t).2) ?_ (Runs.none e5 _)
      refine runs_at ?_ (Free.of_head (c := '@') rfl (prose_nochar h.lead (by decide) (by decide))) ?_ ?_
      · intro p hp
        obtain ⟨q, hq, ha, hc⟩ := slots1_mem hp
        have hok := (h.parts q hq).inl
        refine ⟨by rw [← ha]; exact Free.of_head (c := '@') rfl (hafter q hq '@' (by decide) (by decide)), by rw [← ha]; exact hclose q hq, ?_, ?_⟩
        · intro hs
          rcases hc with ⟨m, x, hi, hp⟩ | ⟨x, hi, hp⟩ | ⟨n, v, hi, hp⟩ | ⟨x, u, r, l, hi, hp⟩
          · rw [hi] at hok; rw [hp]
            exact Free.of_head (c := '@') rfl (marked_nochar hok (by decide) (by decide))
          · rw [hp] at hs; cases hs
          · rw [hp, show Slot.str C.cfg.uid (.key n v) = shelfKey C.cfg.uid n from rfl, D.uid]
            exact Free.of_head (c := '@') rfl (key_nochar D.plain (by decide) (by decide) n)
          · rw [hi] at hok; rw [hp]
            exact Free.of_head (c := '@') rfl (link_nochar hok (by decide) (by decide))
        · intro c v hs
          rcases hc with ⟨m, x, hi, hp⟩ | ⟨x, hi, hp⟩ | ⟨n, v, hi, hp⟩ | ⟨x, u, r, l, hi, hp⟩
          · rw [hp] at hs; cases hs
          · rw [hi] at hok; rw [hp] at hs ⊢
            simp only [selAt, Option.some.injEq, Prod.mk.injEq] at hs
            obtain ⟨rfl, -⟩ := hs
            refine ⟨by simp [Slot.str, Spec.Inline.source], ?_⟩
            intro a y r ea hy hp
            match y, hy with
            | z :: y, _ =>
              simp only [List.cons_append, List.cons_prefix_cons] at hp
              exact hok.2.2.1 (by rw [ea, hp.1]; simp)
          · rw [hp] at hs; cases hs
          · rw [hp] at hs; cases hs
      · exact fun hne => hlead (ne_after (slots1_after _ _ _) hne)
      · exact dropLast_after (Q := fun a => ∃ u x, a = u ++ [x] ∧ isWs x = true) (slots1_after _ _ _) hb
  · rw [hl2 hl]; exact ⟨rfl, rfl⟩
  -- the others
  refine Runs.bind (σ' := (slots2 C.cfg.uid σ t).2) (Runs.none e6 _) ?_
  refine Runs.bind (a := t.lead ++ slotsText C.cfg.uid (slots2 C.cfg.uid σ t).1) (σ' := (slots2 C.cfg.uid σ t).2) ?_ ?_
  · unfold getRefs; apply Runs.none; split <;> assumption
  refine Runs.bind (σ' := (slots2 C.cfg.uid σ t).2) (Runs.none e9 _) ?_
  -- links
  refine Runs.bind (runs_links D hLk hgap (dropLast_after (Q := fun a => ∃ u x, a = u ++ [x] ∧ isWs x = true) (slots2_after _ _ _) hb) hlink) ?_
  exact (Leaves.unless fun _ => Leaves.replaceP e11).runs _

/-! ## Marked texts -/

theorem part_infix {t : Spec.Marked} {q : Spec.Part} (h : q ∈ t.parts) : q.inl.source <:+: t.source := by
  obtain ⟨a, b, e⟩ := List.append_of_mem h
  refine ⟨t.lead ++ a.flatMap (fun p => p.inl.source ++ p.after), q.after ++ b.flatMap (fun p => p.inl.source ++ p.after), ?_⟩
  simp [Spec.Marked.source, e]

/-- What is stored for code or verbatim text. -/
theorem stored_sealed {C : Ctx} {base : Str} (D : DocCtx C base) {t : Spec.Marked} (h : t.Ok C.U.isLu C.cfg.lite)
    (htok : ¬ C.cfg.uid <:+: t.source) {q : Spec.Part} (hq : q ∈ t.parts) (hm : ∀ m x, q.inl ≠ .marked m x)
    (hl : ∀ x u r l, q.inl ≠ .link x u r l) :
    ':' ∉ q.inl.html ∨ Sealed C.cfg.uid q.inl.html := by
  have hok := (h.parts q hq).inl
  have hin := part_infix hq
  have hclean : ∀ x, x <:+: q.inl.source → containsStr C.cfg.uid x = false := by
    intro x hx
    cases hc : containsStr C.cfg.uid x with
    | false => rfl
    | true => 
      obtain ⟨a, b, e⟩ := containsStr_iff.1 hc
      exact absurd ((List.IsInfix.trans ⟨a, b, by rw [e]; simp⟩ hx).trans hin) htok
  cases hi : q.inl with
  | marked m x => exact absurd hi (hm m x)
  | link x u r l => exact absurd hi (hl x u r l)
  | code x =>
    right
    have hx : containsStr C.cfg.uid x = false := hclean x ⟨['@'], ['@'], by rw [hi]; rfl⟩
    rw [D.uid] at hx ⊢
    obtain ⟨c1, c2, c3, c4, c5, c6, c7, c8⟩ := uid_chars D.plain
    have he := containsStr_enc (q := false) c1 c2 c7 hx
    rw [code_html]
    refine ⟨⟨'<', _, rfl, by decide⟩, ⟨t!"<code>" ++ encodeHtml x false false ++ t!"</code", '>', by simp, by decide⟩, ?_⟩
    have := containsStr_sep (a := t!"<code") (c := '>') c4 c8 (containsStr_false_of_mem c7 (by decide))
      (containsStr_sep (c := '<') (b := t!"/code>") c3 c8 he (containsStr_false_of_mem c7 (by decide)))
    simpa using this
  | verbatim x =>
    rw [hi] at hok
    by_cases hc : ':' ∈ x
    · right
      obtain ⟨h1, h2⟩ := hok.2.2.2.2 hc
      exact ⟨h1, h2, hclean x ⟨['=', '='], ['=', '='], by rw [hi]; rfl⟩⟩
    · exact .inl hc

/-- The HTML of a text before newlines are put after the break tags. -/
def bodyMid (br : Str) (t : Spec.Marked) : Str := brk br t.lead ++ t.parts.flatMap (fun p => p.inl.html ++ brk br p.after)

theorem start_of {C : Ctx} {t : Spec.Marked} (h : t.Ok C.U.isLu C.cfg.lite) (hne : t.parts ≠ []) : AfterGap t.lead.reverse := by
  rcases h.before hne with e | e
  · exact .inl (by rw [e]; rfl)
  · obtain ⟨u, c, e, hc⟩ := ends_ws e
    exact .inr ⟨c, u.reverse, by rw [e]; simp, hc⟩

theorem marked_source {C : Ctx} {base : Str} (D : DocCtx C base) {t : Spec.Marked} (h : t.Ok C.U.isLu C.cfg.lite)
    (hR : t.Resolved (Spec.Resolves C.E.urlParse C.E.urlJoin C.cfg.restricted) C.cfg.rel)
    (htok : ¬ C.cfg.uid <:+: t.source) (σ : PState) :
    Source C t.source (merge C.cfg.uid t.lead (slots3 C.cfg.uid σ t).1).1 (merge C.cfg.uid t.lead (slots3 C.cfg.uid σ t).1).2
      t.parts.length σ (slots3 C.cfg.uid σ t).2 (bodyMid C.cfg.brTag t) := by
  have hs2 : ∀ p ∈ (slots3 C.cfg.uid σ t).1, Slot2 C p := by
    intro p hp
    obtain ⟨q, hq, ha, ⟨m, x, hi, hp⟩ | ⟨n, hp, -⟩⟩ := slots3_mem hp
    all_goals
      refine ⟨by rw [← ha]; exact (h.parts q hq).after, ?_⟩
      rw [hp]
    · have := (h.parts q hq).inl
      rw [hi, ha] at this
      exact this
    · trivial
  have hm := merge_ok D (slots3 C.cfg.uid σ t).1 true t.lead (prose_lead h.lead true) hs2
    (fun hne => start_of h (ne_after (slots3_after _ _ _) hne)) (dropLast_after (slots3_after _ _ _) h.between)
  have he := merge_text C.cfg.uid (slots3 C.cfg.uid σ t).1 t.lead
  have hT := hm.text (by
    rw [he]
    intro e0
    rw [List.append_eq_nil_iff] at e0
    obtain ⟨c, u, e, -⟩ := h.first
    cases hp : t.parts with
    | nil => rw [Spec.Marked.source, hp, e0.1] at e; cases e
    | cons q ps =>
      have h1 := slots3_after C.cfg.uid σ t
      rw [hp] at h1
      cases hL : (slots3 C.cfg.uid σ t).1 with
      | nil => rw [hL] at h1; cases h1
      | cons p L =>
        rw [hL, slotsText_cons, List.append_eq_nil_iff] at e0
        obtain ⟨q, hq, ha, ⟨m, x, hi, hp⟩ | ⟨n, hp, -⟩⟩ := slots3_mem (p := p) (uid := C.cfg.uid) (σ := σ) (t := t) (by rw [hL]; simp)
        · have := (h.parts q hq).inl
          rw [hi] at this
          rw [hp] at e0
          obtain ⟨y, z, ey, -⟩ := marker_start (part_marker this.1).1
          have := e0.2.1
          simp [Slot.str, Spec.Inline.source, ey] at this
        · rw [hp] at e0
          exact key_ne e0.2.1) (by
    rw [he]
    intro c hc
    rintro rfl
    -- the last character is that of the source
    rcases List.eq_nil_or_concat t.parts with hp | ⟨ps, q, hp⟩
    · have h1 := slots3_after C.cfg.uid σ t
      rw [hp, List.map_nil, List.map_eq_nil_iff] at h1
      rw [h1] at hc
      simp only [slotsText, List.flatMap_nil, List.append_nil] at hc
      obtain ⟨u, hu⟩ := List.getLast?_eq_some_iff.1 hc
      exact h.last u (by simp [Spec.Marked.source, hp, hu])
    · rw [List.concat_eq_append] at hp
      have h1 := slots3_after C.cfg.uid σ t
      rw [hp] at h1
      rcases List.eq_nil_or_concat (slots3 C.cfg.uid σ t).1 with hL | ⟨L, p, hL⟩
      · rw [hL] at h1; simp at h1
      rw [List.concat_eq_append] at hL
      rw [hL] at h1 hc
      simp only [List.map_append, List.map_cons, List.map_nil] at h1
      have h2 := (List.append_inj' h1 rfl).2
      simp at h2
      have e1 : t.lead ++ slotsText C.cfg.uid (L ++ [p]) = (t.lead ++ (slotsText C.cfg.uid L ++ p.1.str C.cfg.uid)) ++ p.2 := by
        simp [slotsText]
      rw [e1] at hc
      by_cases hq : q.after = []
      · rw [h2, hq, List.append_nil, ← List.append_assoc] at hc
        obtain ⟨r, hr, ha, ⟨m, x, hi, hp'⟩ | ⟨n, hp', -⟩⟩ := slots3_mem (p := p) (uid := C.cfg.uid) (σ := σ) (t := t) (by rw [hL]; simp)
        · have := (h.parts r hr).inl
          rw [hi] at this
          rw [hp', getLast_append_ne] at hc
          · exact marked_nl this (List.mem_of_getLast? hc)
          · obtain ⟨y, z, ey, -⟩ := marker_start (part_marker this.1).1
            simp [Slot.str, Spec.Inline.source, ey]
        · rw [hp', getLast_append_ne] at hc
          · have := List.mem_of_getLast? hc
            rw [show Slot.str C.cfg.uid (.key n r.inl.html) = shelfKey C.cfg.uid n from rfl, D.uid] at this
            exact key_nonl D.plain n this
          · exact key_ne
      · rw [h2, getLast_append_ne hq] at hc
        obtain ⟨u, hu⟩ := List.getLast?_eq_some_iff.1 hc
        exact h.last (t.lead ++ (ps.flatMap (fun p => p.inl.source ++ p.after) ++ (q.inl.source ++ u))) (by
          simp [Spec.Marked.source, hp, hu]))
  have hg1 := stage_grow (sel := selEq) (uid := C.cfg.uid) (slots t) σ
  have hg2 := stage_grow (sel := selAt) (uid := C.cfg.uid) (slots1 C.cfg.uid σ t).1 (slots1 C.cfg.uid σ t).2
  have hg3 := stageU_grow (sel := selLink) (uid := C.cfg.uid) (slots2 C.cfg.uid σ t).1 (slots2 C.cfg.uid σ t).2
  have hkeys : KeysOk C.cfg.uid (slots3 C.cfg.uid σ t).2 (slots3 C.cfg.uid σ t).1 := by
    refine stageU_keys _ _ ?_ (stage_keys _ _ ?_ (stage_keys _ _ ?_ ?_))
    · intro p hp o a z hs
      obtain ⟨x, u, r, l, e⟩ := selLink_some hs
      obtain ⟨q, hq, ha, ⟨m, x', hi, hp⟩ | ⟨n, hp, -⟩ | ⟨x', u', r', l', hi, hp⟩⟩ := slots2_mem hp
      · rw [hp] at e; cases e
      · rw [hp] at e; cases e
      · have hok := (h.parts q hq).inl
        rw [hi] at hok
        rw [hp] at hs
        simp only [selLink, Option.some.injEq, Prod.mk.injEq] at hs
        obtain ⟨-, rfl, rfl⟩ := hs
        refine ⟨by decide, ?_⟩
        have h1 : ':' ∉ relAttr l' := by
          cases l' with
          | none => simp [relAttr]
          | some y =>
            have : ':' ∉ y := by
              intro hc
              have := hok.rel y rfl ':' hc
              revert this; decide
            simp [relAttr, this]
        have h2 := linesA_nocolon (words_prose hok.words).1
        simp [h1, h2]
    · intro p hp c v hs
      obtain ⟨q, hq, ha, ⟨m, x, hi, hp⟩ | ⟨x, hi, hp⟩ | ⟨n, v, hi, hp⟩ | ⟨x, u, r, l, hi, hp⟩⟩ := slots1_mem hp
      all_goals rw [hp] at hs
      · cases hs
      · have := stored_sealed D h htok hq (by rw [hi]; intro _ _ e; cases e) (by rw [hi]; intro _ _ _ _ e; cases e)
        simp only [selAt, Option.some.injEq, Prod.mk.injEq] at hs
        rw [hi, code_html, hs.2] at this
        exact this
      · cases hs
      · cases hs
    · intro p hp c v hs
      obtain ⟨q, hq, rfl⟩ := List.mem_map.1 hp
      cases hi : q.inl with
      | verbatim x =>
        have := stored_sealed D h htok hq (by rw [hi]; intro _ _ e; cases e) (by rw [hi]; intro _ _ _ _ e; cases e)
        simp only [hi, selEq, Option.some.injEq, Prod.mk.injEq] at hs
        rw [hi, show (Spec.Inline.verbatim x).html = x from rfl, hs.2] at this
        exact this
      | marked m x => simp [hi, selEq] at hs
      | code x => simp [hi, selEq] at hs
      | link x u r l => simp [hi, selEq] at hs
    · intro p hp n v e
      obtain ⟨q, hq, rfl⟩ := List.mem_map.1 hp
      cases e
  refine ⟨early_slots D h hR σ hT.toInlineOk he, hT, (hg1.1.trans hg2.1).trans hg3.1, hg3.2.1.trans (hg2.2.1.trans hg1.2.1), slots3_index _ _ _ _, ?_⟩
  intro τ hτ hi
  have hl : Rep C.cfg.uid τ (brk C.cfg.brTag t.lead) (brk C.cfg.brTag t.lead) := by
    have := (Rep.nil (uid := C.cfg.uid) (σ := τ)).text (brk_nocolon (brTag_nocolon C) (linesA_nocolon (prose_over h.lead)))
    simpa using this
  have hr := merge_rep D (slots3 C.cfg.uid σ t).1 t.lead _ hl hs2 (by
    intro p hp n v e r g hr
    obtain ⟨h1, h2⟩ := hkeys p hp n v e
    exact h2.rep hi h1 hτ hr)
  have e2 : (slots3 C.cfg.uid σ t).1.flatMap (fun p => p.1.html ++ brk C.cfg.brTag p.2) =
      t.parts.flatMap (fun p => p.inl.html ++ brk C.cfg.brTag p.after) := by
    have := congrArg (fun l => l.flatMap (fun p : Str × Str => p.1 ++ brk C.cfg.brTag p.2)) (slots3_html C.cfg.uid σ t)
    simpa [List.flatMap_map] using this
  rw [e2] at hr
  exact hr

end Rustextile
