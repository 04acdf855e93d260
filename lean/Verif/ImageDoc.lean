import Verif.ImageKey
import Verif.InText

/-!
# Documents with images
-/

namespace Rustextile

open Prog

variable {aux0 : Aux}

/-! ## Texts in which parts have been set aside -/

theorem merge_keys (uid : Str) : ∀ (L : List (Slot × Str)) (w : Str), (∀ p ∈ L, ∃ n v, p.1 = .key n v) → merge uid w L = (w ++ slotsText uid L, [])
  | [], w, _ => by simp [merge, slotsText]
  | (s, a) :: L, w, h => by
    obtain ⟨n, v, e⟩ := h (s, a) (by simp)
    simp only at e
    subst e
    rw [show merge uid w ((.key n v, a) :: L) = merge uid (w ++ (Slot.str uid (.key n v) ++ a)) L from rfl, merge_keys uid L _ (fun p hp => h p (by simp [hp])),
      slotsText_cons]
    simp

theorem keyed_source {C : Ctx} {base : Str} (D : DocCtx C base) {S lead : Str} {L : List (Slot × Str)} {k : Nat} {σ σ1 : PState}
    (hl : Spec.Prose C.U.isLu lead) (hb : L ≠ [] → lead = [] ∨ Spec.EndsInSpace lead)
    (hk : ∀ p ∈ L, (∃ n v, p.1 = .key n v) ∧ Spec.Prose C.U.isLu p.2) (hbt : ∀ p ∈ L.dropLast, Spec.EndsInSpace p.2)
    (hne : lead ++ slotsText C.cfg.uid L ≠ []) (hlast : ∀ c, (lead ++ slotsText C.cfg.uid L).getLast? = some c → c ≠ '\n')
    (he : Runs C (grafEarly C S) (lead ++ slotsText C.cfg.uid L) σ σ1) (hg : Grow C.cfg.uid σ σ1) (ha : σ1.aux = σ.aux)
    (hi : σ1.refIndex ≤ σ.refIndex + 2 * k)
    (hrep : ∀ τ : PState, Agrees C.cfg.uid σ1 τ → σ1.refIndex < 2 ^ 32 → ∀ p ∈ L, ∀ n v, p.1 = .key n v → ∀ r h, Rep C.cfg.uid τ r h →
      Rep C.cfg.uid τ (shelfKey C.cfg.uid n ++ r) (v ++ h)) :
    Source C S (lead ++ slotsText C.cfg.uid L) [] k σ σ1 (brk C.cfg.brTag lead ++ L.flatMap (fun p => p.1.html ++ brk C.cfg.brTag p.2)) := by
  have hs2 : ∀ p ∈ L, Slot2 C p := by
    intro p hp
    obtain ⟨⟨n, v, e⟩, h⟩ := hk p hp
    refine ⟨h, ?_⟩
    rw [e]; trivial
  have hm := merge_ok D L true lead (prose_lead hl true) hs2 (fun hn => by
    rcases hb hn with e | e
    · exact .inl (by rw [e]; rfl)
    · obtain ⟨u, c, e, hc⟩ := ends_ws e
      exact .inr ⟨c, u.reverse, by rw [e]; simp, hc⟩) hbt
  have em := merge_keys C.cfg.uid L lead (fun p hp => (hk p hp).1)
  have er : rawText ([] : List Part) = [] := rfl
  rw [em] at hm
  have hT := hm.text (by simpa [er] using hne) (by simpa [er] using hlast)
  refine ⟨by simpa [er] using he, hT, hg, ha, by simpa using hi, ?_⟩
  intro τ hτ hn
  have h0 : Rep C.cfg.uid τ (brk C.cfg.brTag lead) (brk C.cfg.brTag lead) := by
    have := (Rep.nil (uid := C.cfg.uid) (σ := τ)).text (brk_nocolon (brTag_nocolon C) (linesA_nocolon (prose_over hl)))
    simpa using this
  have := merge_rep D L lead _ h0 hs2 (hrep τ hτ hn)
  rw [em] at this
  exact this

theorem notelist_keyed {C : Ctx} {base : Str} (D : DocCtx C base) {lead : Str} {L : List (Slot × Str)} (hb : L ≠ [] → lead = [] ∨ Spec.EndsInSpace lead)
    (hk : ∀ p ∈ L, ∃ n v, p.1 = .key n v) (hn : ¬ Spec.notelistWord <+: lead) : ¬ Spec.notelistWord <+: lead ++ slotsText C.cfg.uid L := by
  cases L with
  | nil => simpa [slotsText] using hn
  | cons p L =>
    obtain ⟨s, a⟩ := p
    obtain ⟨n, v, e⟩ := hk (s, a) (by simp)
    simp only at e
    subst e
    rcases hb (by simp) with rfl | ⟨u, c, rfl, hc⟩
    · obtain ⟨r, e⟩ := key_cons (base := base) n
      rw [slotsText_cons, show Slot.str C.cfg.uid (.key n v) = shelfKey C.cfg.uid n from rfl, D.uid, e]
      simp [Spec.notelistWord]
    · have hx : ∀ {k w x : Str}, c ∉ k → k <+: (w ++ [c]) ++ x → k <+: w ++ [c] := by
        intro k
        induction k with
        | nil => intro w x _ _; exact List.nil_prefix
        | cons d k ih =>
          intro w x hk hp
          cases w with
          | nil =>
            simp only [List.nil_append, List.cons_append, List.cons_prefix_cons] at hp
            exact absurd (by simp [hp.1]) hk
          | cons e w =>
            simp only [List.cons_append, List.cons_prefix_cons] at hp ⊢
            exact ⟨hp.1, ih (fun hm => hk (by simp [hm])) hp.2⟩
      exact fun h => hn (hx (by rcases hc with rfl | rfl <;> decide) h)

/-! ## The images of a text -/

theorem startsIn_head {l t : Str} (h : Spec.StartsIn l t) {c : Char} (hc : t.head? = some c) : c ∈ l := by
  cases t with
  | nil => cases hc
  | cons d u => simp at hc; subst hc; exact h _ _ rfl

theorem partsOf_ok {U : Uni} {i : Spec.Image} {a rest : Str} (h : i.Ok a) (r : Bool) (hr : a = [] → rest = []) : (partsOf r i).Ok U (a ++ rest) where
  al := by
    intro x hx
    simp only [partsOf, Option.map_eq_some_iff] at hx
    obtain ⟨b, -, rfl⟩ := hx
    cases r <;> cases b <;> decide
  gs := ⟨h.atts.1, h.atts.2⟩
  url := by
    intro c hc
    have := h.url.chars c hc
    have hA := urlChar_addr this
    rcases hA with (hA | ⟨hA, -⟩) | rfl
    · have : ∀ c ∈ addrA.ascii, isWs c = false ∧ c ≠ '(' ∧ c ≠ '!' := by decide
      exact this c hA
    · cases hA
    · decide
  first := by
    obtain ⟨c, u, e, hc⟩ := h.url.first
    refine ⟨c, u, e, ?_⟩
    rcases urlChar_addr (h.url.chars c (by rw [e]; simp)) with (hA | ⟨hA, -⟩) | rfl
    · have : ∀ c ∈ addrA.ascii, c ∉ t!"<>=&([{" := by decide
      exact this c hA
    · cases hA
    · exact absurd rfl hc
  ti := by
    intro x hx
    simp only [partsOf, Option.map_eq_some_iff] at hx
    obtain ⟨b, hb, rfl⟩ := hx
    obtain ⟨h1, h2, h3⟩ := h.title b hb
    refine ⟨?_, ?_⟩
    · cases r with
      | false => exact h1
      | true =>
        intro e
        simp only [if_true, escape_eq] at e
        cases b with
        | nil => exact h1 rfl
        | cons c b =>
          rw [show encodeHtml (c :: b) false false = encChar false false c ++ encodeHtml b false false from rfl, List.append_eq_nil_iff,
            enc_titleChar (h2 c (by simp))] at e
          have := e.1
          split at this <;> cases this
    · intro hm
      have k := (escape_title h2 h3 r).1 ')' (by simp [seenTitle]; exact hm)
      exact Alpha.not_mem (A := titA) (by decide) (by decide) k
  li := by
    intro x hx
    simp only [partsOf, Option.map_eq_some_iff] at hx
    obtain ⟨l, hl, rfl⟩ := hx
    obtain ⟨h1, -, u, c, e, hc⟩ := h.link l hl
    have hch : ∀ c ∈ l.1, isWs c = false ∧ c ∉ t!"])" := by
      intro c hc
      rcases urlChar_addr (h1.chars c hc) with (hA | ⟨hA, -⟩) | rfl
      · exact (by decide : ∀ c ∈ addrA.ascii, isWs c = false ∧ c ∉ t!"])") c hA
      · cases hA
      · decide
    refine ⟨fun c hc => (hch c hc).1, u, c, e, ?_⟩
    have := (hch c (by rw [e]; simp)).2
    simp at this hc ⊢
    exact ⟨this.1, this.2, hc.1, hc.2.1⟩
  after := by
    intro c hc
    cases a with
    | nil => rw [hr rfl] at hc; cases hc
    | cons d u =>
      simp at hc
      subst hc
      have := h.after d u rfl
      by_cases hl : i.link.isSome = true
      · rw [if_pos hl] at this
        simp at this
        left
        rcases this with rfl | rfl <;> decide
      · rw [if_neg hl] at this
        simp at this
        have e : (partsOf r i).li = none := by
          cases hh : i.link with
          | none => simp [partsOf, hh]
          | some l => rw [hh] at hl; exact absurd rfl hl
        rcases this with rfl | rfl | rfl | rfl
        · exact .inl (by decide)
        · exact .inl (by decide)
        · exact .inr ⟨e, by decide⟩
        · exact .inr ⟨e, by decide⟩

/-- The placeholders of images, and the state after they have been set aside. -/
def imSlots (uid : Str) (r k : Bool) : PState → List (Spec.Image × Str) → List (Slot × Str) × PState
  | σ, [] => ([], σ)
  | σ, p :: ps => ((.key ((imCached σ p.1).refIndex + 1) (p.1.html r k), p.2) :: (imSlots uid r k (imShelved uid r k σ p.1) ps).1,
      (imSlots uid r k (imShelved uid r k σ p.1) ps).2)

theorem imSlots_html (uid : Str) (r k : Bool) : ∀ (ps : List (Spec.Image × Str)) (σ : PState),
    (imSlots uid r k σ ps).1.map (fun p => (p.1.html, p.2)) = ps.map (fun p => (p.1.html r k, p.2))
  | [], _ => rfl
  | p :: ps, σ => by
    rw [List.map_cons, ← imSlots_html uid r k ps (imShelved uid r k σ p.1)]
    rfl

theorem imSlots_after (uid : Str) (r k : Bool) (ps : List (Spec.Image × Str)) (σ : PState) : (imSlots uid r k σ ps).1.map (·.2) = ps.map (·.2) := by
  have := congrArg (List.map (·.2)) (imSlots_html uid r k ps σ)
  rw [List.map_map, List.map_map] at this
  exact this

theorem imSlots_keys (uid : Str) (r k : Bool) : ∀ (ps : List (Spec.Image × Str)) (σ : PState), ∀ p ∈ (imSlots uid r k σ ps).1, ∃ n v, p.1 = .key n v
  | [], _, _, h => absurd h List.not_mem_nil
  | q :: ps, σ, p, h => by
    rcases List.mem_cons.1 h with rfl | h
    · exact ⟨_, _, rfl⟩
    · exact imSlots_keys uid r k ps _ p h

theorem imSlots_grow (uid : Str) (r k : Bool) : ∀ (ps : List (Spec.Image × Str)) (σ : PState),
    Grow uid σ (imSlots uid r k σ ps).2 ∧ (imSlots uid r k σ ps).2.aux = σ.aux ∧ (imSlots uid r k σ ps).2.refIndex ≤ σ.refIndex + 3 * ps.length
  | [], σ => ⟨Grow.refl _ _, rfl, Nat.le_refl _⟩
  | p :: ps, σ => by
    obtain ⟨h1, h2, h3⟩ := imSlots_grow uid r k ps (imShelved uid r k σ p.1)
    obtain ⟨g1, g2⟩ := imShelved_grow uid r k σ p.1
    have g3 := imShelved_index uid r k σ p.1
    have g4 := imCached_index σ p.1
    refine ⟨g1.trans h1, h2.trans g2, ?_⟩
    simp only [imSlots, List.length_cons]
    omega

theorem imSlots_rep {base : Str} (hb : Spec.PlainBase base) (r k : Bool) {τ : PState} : ∀ (ps : List (Spec.Image × Str)) (σ : PState),
    (∀ p ∈ ps, containsStr (uidOf base) p.1.source = false) → Agrees (uidOf base) (imSlots (uidOf base) r k σ ps).2 τ →
    (imSlots (uidOf base) r k σ ps).2.refIndex < 2 ^ 32 → ∀ p ∈ (imSlots (uidOf base) r k σ ps).1, ∀ n v, p.1 = .key n v → ∀ x h, Rep (uidOf base) τ x h →
      Rep (uidOf base) τ (shelfKey (uidOf base) n ++ x) (v ++ h)
  | [], _, _, _, _, _, h => absurd h List.not_mem_nil
  | q :: ps, σ, hc, ha, hi, p, h => by
    obtain ⟨h1, -, -⟩ := imSlots_grow (uidOf base) r k ps (imShelved (uidOf base) r k σ q.1)
    rcases List.mem_cons.1 h with rfl | h
    · intro n v e x y hr
      cases e
      exact image_rep hb (hc q (by simp)) r k (ha.before h1) (Nat.lt_of_le_of_lt h1.index hi) hr
    · exact imSlots_rep hb r k ps _ (fun p hp => hc p (by simp [hp])) ha hi p h

theorem scan_images {C : Ctx} {base : Str} (D : DocCtx C base) (hz : C.cfg.getSizes = false) : ∀ {ps : List (Spec.Image × Str)} (_ : ∀ p ∈ ps, p.1.Ok p.2 ∧ Spec.Prose C.U.isLu p.2)
    (_ : ∀ p ∈ ps.dropLast, Spec.EndsInSpace p.2)
    (_ : ∀ p ∈ ps, p.1.Resolved (Spec.Resolves C.E.urlParse C.E.urlJoin C.cfg.restricted) (Spec.Reads C.E.urlParse C.E.urlJoin)) (pre : Str) (σ : PState),
    ScanP C IMAGE_RE (fImage C) pre (ps.flatMap (fun p => (partsOf C.cfg.restricted p.1).text ++ p.2)) σ
      (slotsText C.cfg.uid (imSlots C.cfg.uid C.cfg.restricted (useAlignClass C.cfg) σ ps).1) (imSlots C.cfg.uid C.cfg.restricted (useAlignClass C.cfg) σ ps).2
  | [], _, _, _, _, _ => .nil
  | p :: ps, h, hb, hR, pre, σ => by
    have ih := fun pre σ => scan_images D hz (ps := ps) (fun q hq => h q (by simp [hq])) (fun q hq => hb q (by
      rw [List.dropLast_cons_of_ne_nil (by rintro rfl; cases hq)]
      exact List.mem_cons_of_mem _ hq)) (fun q hq => hR q (by simp [hq])) pre σ
    obtain ⟨h1, h2⟩ := h p (by simp)
    have hr : p.2 = [] → ps.flatMap (fun p => (partsOf C.cfg.restricted p.1).text ++ p.2) = [] := by
      intro e
      cases ps with
      | nil => rfl
      | cons q ps =>
        obtain ⟨u, c, e', -⟩ := hb p (by simp)
        rw [e] at e'
        simp at e'
    have e1 : slotsText C.cfg.uid (imSlots C.cfg.uid C.cfg.restricted (useAlignClass C.cfg) σ (p :: ps)).1 = shelfKey C.cfg.uid ((imCached σ p.1).refIndex + 1) ++
        (p.2 ++ slotsText C.cfg.uid (imSlots C.cfg.uid C.cfg.restricted (useAlignClass C.cfg) (imShelved C.cfg.uid C.cfg.restricted (useAlignClass C.cfg) σ p.1) ps).1) := by
      rw [imSlots, slotsText_cons]; rfl
    rw [List.flatMap_cons, List.append_assoc, e1]
    refine ScanP.hit (image_hit (partsOf_ok h1 C.cfg.restricted hr)) (by simp [ImParts.text]) (fun gap => runs_fImage D hz h1 (hR p (by simp)) gap _ σ) ?_
    exact ScanP.of_skips (image_skips (fun c hc hm => Alpha.not_mem (A := linesA) (c := c) (by
      intro hx; revert hm hx; simp only [List.mem_cons, List.not_mem_nil, or_false]; rintro (rfl | rfl | rfl) <;> decide) (by
      revert hm; simp only [List.mem_cons, List.not_mem_nil, or_false]; rintro (rfl | rfl | rfl) <;> decide) (prose_over h2 c hc))) (ih _ _)

theorem imParts_run {up : Char → Bool} : ∀ {ps : List (Spec.Image × Str)} (_ : ∀ p ∈ ps, p.1.Ok p.2 ∧ Spec.Prose up p.2)
    (_ : ∀ p ∈ ps.dropLast, Spec.EndsInSpace p.2) (r : Bool), imM.Run 0 (ps.flatMap (fun p => (partsOf r p.1).text ++ p.2))
  | [], _, _, _ => rfl
  | p :: ps, h, hb, r => by
    have ih := imParts_run (ps := ps) (fun q hq => h q (by simp [hq])) (fun q hq => hb q (by
      rw [List.dropLast_cons_of_ne_nil (by rintro rfl; cases hq)]
      exact List.mem_cons_of_mem _ hq)) r
    obtain ⟨h1, h2⟩ := h p (by simp)
    have hr : p.2 = [] → ps.flatMap (fun p => (partsOf r p.1).text ++ p.2) = [] := by
      intro e
      cases ps with
      | nil => rfl
      | cons q ps =>
        obtain ⟨u, c, e', -⟩ := hb p (by simp)
        rw [e] at e'
        simp at e'
    rw [List.flatMap_cons, List.append_assoc]
    have hov := prose_over h2
    have haf := h1.after
    refine image_run h1 r ?_ ?_
    · intro hl
      cases hp : p.2 with
      | nil => rw [hr hp]; rfl
      | cons c u =>
        rw [hp] at haf hov
        have := haf c u rfl
        rw [hl] at this
        exact ⟨(⟨t!" \n.,", false⟩, 0), by simp [imM, Auto.step], .inl this, run_loop (A := linesA) (by simp [imM, Auto.step]) ih (fun x hx => hov x (by simp [hx]))⟩
    · intro hl
      cases hp : p.2 with
      | nil => rw [hr hp]; rfl
      | cons c u =>
        rw [hp] at haf hov
        have := haf c u rfl
        rw [if_pos hl] at this
        exact ⟨(gapA, 0), by simp [imM, Auto.step], .inl this, run_loop (A := linesA) (by simp [imM, Auto.step]) ih (fun x hx => hov x (by simp [hx]))⟩

theorem imSeen_run {up : Char → Bool} {t : Spec.ImText} (h : t.Ok up) (r : Bool) : imM.Run 0 (imSeen r t) :=
  run_loop (A := linesA) (by simp [imM, Auto.step]) (imParts_run h.parts h.between r) (prose_over h.lead)

/-- The HTML before newlines are put after the break tags. -/
def imMid (br : Str) (r k : Bool) (t : Spec.ImText) : Str := brk br t.lead ++ t.parts.flatMap (fun p => p.1.html r k ++ brk br p.2)

theorem early_images {C : Ctx} {base : Str} (D : DocCtx C base) (hz : C.cfg.getSizes = false) (hno : C.cfg.noimage = false) {t : Spec.ImText} (h : t.Ok C.U.isLu)
    (hR : t.Resolved (Spec.Resolves C.E.urlParse C.E.urlJoin C.cfg.restricted) (Spec.Reads C.E.urlParse C.E.urlJoin))
    (htok : containsStr C.cfg.uid (imSeen C.cfg.restricted t) = false) (σ : PState) :
    Runs C (grafEarly C (imSeen C.cfg.restricted t))
      (t.lead ++ slotsText C.cfg.uid (imSlots C.cfg.uid C.cfg.restricted (useAlignClass C.cfg) σ t.parts).1) σ
      (imSlots C.cfg.uid C.cfg.restricted (useAlignClass C.cfg) σ t.parts).2 := by
  have hrun := imSeen_run h C.cfg.restricted
  obtain ⟨m1, m2, -, -⟩ := imM_ok
  have he : ∀ r ∈ earlyPatterns.filter (fun r => r != IMAGE_RE), r.search C.U [] (imSeen C.cfg.restricted t) = none :=
    fun r hr => Auto.search_none D.uni m1 (List.all_eq_true.1 m2 r hr) (by decide) hrun
  have e0 : earlyPatterns.filter (fun r => r != IMAGE_RE) = [SP_NOTEXTILE_RE, SP_EQ_RE, SP_CODE_RE, SP_AT_RE, SP_PRE_RE, SP_COMMENT_RE, RESTRICTED_URLREF_RE,
      UNRESTRICTED_URLREF_RE, QUOTED_RE, SLICE_RE] := by decide +kernel
  rw [e0] at he
  simp only [List.mem_cons, List.not_mem_nil, or_false, forall_eq_or_imp, forall_eq] at he
  obtain ⟨e1, e2, e3, e4, e5, e6, e7, e8, e9, e10⟩ := he
  have hn : containsStr (C.cfg.uid ++ t!"linkStartMarker:") (imSeen C.cfg.restricted t) = false := by
    rw [← Bool.not_eq_true, containsStr_iff] at htok ⊢
    rintro ⟨a, b, e⟩
    exact htok ⟨a, t!"linkStartMarker:" ++ b, by rw [e]; simp⟩
  have hst : Runs C (unlessB C.cfg.noimage (image C) (imSeen C.cfg.restricted t))
      (t.lead ++ slotsText C.cfg.uid (imSlots C.cfg.uid C.cfg.restricted (useAlignClass C.cfg) σ t.parts).1) σ
      (imSlots C.cfg.uid C.cfg.restricted (useAlignClass C.cfg) σ t.parts).2 := by
    refine Runs.unless (fun _ => ?_) (fun e => by rw [hno] at e; cases e)
    refine ScanP.runs (by decide +kernel) (fun m => rfl) ?_
    exact ScanP.of_skips (image_skips (fun c hc hm => Alpha.not_mem (A := linesA) (c := c) (by
      intro hx; revert hm hx; simp only [List.mem_cons, List.not_mem_nil, or_false]; rintro (rfl | rfl | rfl) <;> decide) (by
      revert hm; simp only [List.mem_cons, List.not_mem_nil, or_false]; rintro (rfl | rfl | rfl) <;> decide) (prose_over h.lead c hc)))
      (scan_images D hz h.parts h.between hR _ _)
  unfold grafEarly
  generalize imSeen C.cfg.restricted t = s at *
  refine Runs.bind (a := s) (σ' := σ) ((Leaves.unless fun _ => ?_).runs σ) ?_
  · unfold noTextile; exact (Leaves.replaceP e1).bind (Leaves.replaceP e2)
  refine Runs.bind (a := s) (σ' := σ) ((Leaves.unless fun _ => ?_).runs σ) ?_
  · unfold code; exact (Leaves.replaceP e3).bind ((Leaves.replaceP e4).bind (Leaves.replaceP e5))
  refine Runs.bind (a := s) (σ' := σ) (Runs.none e6 σ) ?_
  refine Runs.bind (a := s) (σ' := σ) ?_ ?_
  · unfold getRefs; apply Runs.none; split <;> assumption
  refine Runs.bind (a := s) (σ' := σ) (Runs.none e9 σ) ?_
  exact Runs.bind (a := s) (σ' := σ) ((Leaves.links (Nat.lt_of_lt_of_le (by decide) D.fuel) e10 hn).runs σ) hst

theorem im_source {C : Ctx} {base : Str} (D : DocCtx C base) (hz : C.cfg.getSizes = false) (hno : C.cfg.noimage = false) {t : Spec.ImText} (h : t.Ok C.U.isLu)
    (hR : t.Resolved (Spec.Resolves C.E.urlParse C.E.urlJoin C.cfg.restricted) (Spec.Reads C.E.urlParse C.E.urlJoin))
    (htok : containsStr C.cfg.uid (imSeen C.cfg.restricted t) = false) (hsrc : ¬ C.cfg.uid <:+: t.source) (σ : PState) :
    Source C (imSeen C.cfg.restricted t) (t.lead ++ slotsText C.cfg.uid (imSlots C.cfg.uid C.cfg.restricted (useAlignClass C.cfg) σ t.parts).1) [] t.marks σ
      (imSlots C.cfg.uid C.cfg.restricted (useAlignClass C.cfg) σ t.parts).2 (imMid C.cfg.brTag C.cfg.restricted (useAlignClass C.cfg) t) := by
  have hkeys := imSlots_keys C.cfg.uid C.cfg.restricted (useAlignClass C.cfg) t.parts σ
  have haft := imSlots_after C.cfg.uid C.cfg.restricted (useAlignClass C.cfg) t.parts σ
  have hhtml := imSlots_html C.cfg.uid C.cfg.restricted (useAlignClass C.cfg) t.parts σ
  obtain ⟨g1, g2, g3⟩ := imSlots_grow C.cfg.uid C.cfg.restricted (useAlignClass C.cfg) t.parts σ
  have hearly := early_images D hz hno h hR htok σ
  have hrep : ∀ τ : PState, Agrees C.cfg.uid (imSlots C.cfg.uid C.cfg.restricted (useAlignClass C.cfg) σ t.parts).2 τ →
      (imSlots C.cfg.uid C.cfg.restricted (useAlignClass C.cfg) σ t.parts).2.refIndex < 2 ^ 32 →
      ∀ p ∈ (imSlots C.cfg.uid C.cfg.restricted (useAlignClass C.cfg) σ t.parts).1, ∀ n v, p.1 = .key n v → ∀ r h, Rep C.cfg.uid τ r h →
      Rep C.cfg.uid τ (shelfKey C.cfg.uid n ++ r) (v ++ h) := by
    intro τ h1 h2
    rw [D.uid] at h1 h2 ⊢
    refine imSlots_rep D.plain _ _ t.parts σ ?_ h1 h2
    intro p hp
    rw [← D.uid]
    refine contains_of_not (fun hi => hsrc (hi.trans ?_))
    obtain ⟨a, b, e⟩ := List.append_of_mem hp
    exact ⟨t.lead ++ Spec.imParts a, p.2 ++ Spec.imParts b, by simp [Spec.ImText.source, Spec.imParts, e]⟩
  have e2 : (imSlots C.cfg.uid C.cfg.restricted (useAlignClass C.cfg) σ t.parts).1.flatMap (fun p => p.1.html ++ brk C.cfg.brTag p.2) =
      t.parts.flatMap (fun p => p.1.html C.cfg.restricted (useAlignClass C.cfg) ++ brk C.cfg.brTag p.2) := by
    have := congrArg (fun l => l.flatMap (fun p : Str × Str => p.1 ++ brk C.cfg.brTag p.2)) hhtml
    simpa [List.flatMap_map] using this
  generalize hL : (imSlots C.cfg.uid C.cfg.restricted (useAlignClass C.cfg) σ t.parts).1 = L at *
  generalize hS : (imSlots C.cfg.uid C.cfg.restricted (useAlignClass C.cfg) σ t.parts).2 = σ1 at *
  have hnil : L ≠ [] → t.parts ≠ [] := by
    rintro hne e
    rw [e] at haft
    exact hne (List.map_eq_nil_iff.1 haft)
  have hkey' : ∀ n, '\n' ∉ shelfKey C.cfg.uid n := fun n => by rw [D.uid]; exact key_nonl D.plain n
  unfold imMid
  rw [← e2]
  refine keyed_source D h.lead (fun hne => h.before (hnil hne)) ?_ ?_ ?_ ?_ hearly g1 g2 (by simp only [Spec.ImText.marks]; omega) hrep
  · intro p hp
    refine ⟨hkeys p hp, ?_⟩
    have : p.2 ∈ t.parts.map (·.2) := by rw [← haft]; exact List.mem_map.2 ⟨p, hp, rfl⟩
    obtain ⟨q, hq, e⟩ := List.mem_map.1 this
    rw [← e]
    exact (h.parts q hq).2
  · intro p hp
    have : p.2 ∈ t.parts.dropLast.map (·.2) := by rw [List.map_dropLast, ← haft, ← List.map_dropLast]; exact List.mem_map.2 ⟨p, hp, rfl⟩
    obtain ⟨q, hq, e⟩ := List.mem_map.1 this
    rw [← e]
    exact h.between q hq
  · intro e0
    rw [List.append_eq_nil_iff] at e0
    obtain ⟨c, u, e, -⟩ := h.first
    cases hl : L with
    | nil =>
      rw [hl] at haft
      have := List.map_eq_nil_iff.1 haft.symm
      rw [Spec.ImText.source, this, e0.1] at e; cases e
    | cons p M =>
      obtain ⟨n, v, ek⟩ := hkeys p (by rw [hl]; simp)
      rw [hl, slotsText_cons, List.append_eq_nil_iff, ek] at e0
      exact key_ne e0.2.1
  · intro c hc
    rintro rfl
    rcases List.eq_nil_or_concat t.parts with hp | ⟨ps, q, hp⟩
    · rw [hp, List.map_nil, List.map_eq_nil_iff] at haft
      rw [haft] at hc
      simp only [slotsText, List.flatMap_nil, List.append_nil] at hc
      obtain ⟨u, hu⟩ := List.getLast?_eq_some_iff.1 hc
      exact h.last ⟨u, '\n', by simp [Spec.ImText.source, hp, hu, Spec.imParts], .inr rfl⟩
    · rw [List.concat_eq_append] at hp
      rw [hp] at haft
      rcases List.eq_nil_or_concat L with hl | ⟨M, p, hl⟩
      · rw [hl] at haft; simp at haft
      rw [List.concat_eq_append] at hl
      rw [hl] at haft hc
      simp only [List.map_append, List.map_cons, List.map_nil] at haft
      have h2 := (List.append_inj' haft rfl).2
      simp at h2
      have e1 : t.lead ++ slotsText C.cfg.uid (M ++ [p]) = (t.lead ++ (slotsText C.cfg.uid M ++ p.1.str C.cfg.uid)) ++ p.2 := by
        simp [slotsText]
      rw [e1] at hc
      by_cases hq : q.2 = []
      · rw [h2, hq, List.append_nil, ← List.append_assoc] at hc
        obtain ⟨n, v, ek⟩ := hkeys p (by rw [hl]; simp)
        rw [ek, show Slot.str C.cfg.uid (.key n v) = shelfKey C.cfg.uid n from rfl, getLast_append_ne key_ne] at hc
        exact hkey' n (List.mem_of_getLast? hc)
      · rw [h2, getLast_append_ne hq] at hc
        obtain ⟨u, hu⟩ := List.getLast?_eq_some_iff.1 hc
        exact h.last ⟨t.lead ++ (Spec.imParts ps ++ (q.1.source ++ u)), '\n', by
          simp [Spec.ImText.source, Spec.imParts, hp, hu], .inr rfl⟩

/-! ## The text that is seen -/

theorem group_chars {i : Spec.Image} (h : i.atts.Ok) {c : Char} (hc : c ∈ i.groups.flatMap Spec.Group.source) : c ∉ t!"\n\r&<>\"'" := by
  have := groups_plain h c hc
  exact (by decide +kernel : ∀ c ∈ styleChars ++ t!";(){}[]", c ∉ t!"\n\r&<>\"'") c this

theorem url_chars {u : Str} (h : Spec.UrlOk u) {c : Char} (hc : c ∈ u) : c ∉ t!"\n\r&<>\"'" := by
  rcases urlChar_addr (h.chars c hc) with (hA | ⟨hA, -⟩) | rfl
  · exact (by decide : ∀ c ∈ addrA.ascii, c ∉ t!"\n\r&<>\"'") c hA
  · cases hA
  · decide

theorem text_nonl {i : Spec.Image} {a : Str} (h : i.Ok a) (r : Bool) : ∀ c ∈ (partsOf r i).text, c ≠ '\n' ∧ c ≠ '\r' := by
  have hx : ∀ {c : Char}, c ∉ t!"\n\r&<>\"'" → c ≠ '\n' ∧ c ≠ '\r' := by
    intro c hc
    simp at hc
    exact ⟨hc.1, hc.2.1⟩
  intro c hc
  simp only [ImParts.text, List.mem_cons, List.mem_append] at hc
  rcases hc with rfl | hc | hc | hc | hc | rfl | hc
  · decide
  · cases ha : i.align with
    | none => rw [show (partsOf r i).al = none by simp [partsOf, ha]] at hc; cases hc
    | some b =>
      rw [show (partsOf r i).al.getD [] = if r then Spec.escape false b.mark else b.mark by simp [partsOf, ha]] at hc
      have : ∀ c ∈ (if r then Spec.escape false b.mark else b.mark), c ≠ '\n' ∧ c ≠ '\r' := by cases r <;> cases b <;> decide
      exact this c hc
  · exact hx (group_chars h.atts hc)
  · exact hx (url_chars h.url hc)
  · cases ht : i.title with
    | none => rw [show (partsOf r i).ti = none by simp [partsOf, ht]] at hc; cases hc
    | some b =>
      rw [show (partsOf r i).ti = some (seenTitle r b) by simp [partsOf, ht, seenTitle]] at hc
      simp only [Spec.inParens, List.mem_cons, List.mem_append, List.not_mem_nil, or_false] at hc
      rcases hc with rfl | hc | rfl
      · decide
      · obtain ⟨h1, h2, h3⟩ := h.title b ht
        by_cases hs : c = ' '
        · subst hs; decide
        · have k := (escape_title h2 h3 r).1 c (by simp; exact ⟨hc, hs⟩)
          constructor <;> (rintro rfl; exact absurd k (Alpha.not_mem (A := titA) (by decide) (by decide)))
      · decide
  · decide
  · cases hl : i.link with
    | none => rw [show (partsOf r i).li = none by simp [partsOf, hl]] at hc; cases hc
    | some l =>
      rw [show (partsOf r i).li = some l.1 by simp [partsOf, hl]] at hc
      simp only [linkOf, List.mem_cons] at hc
      rcases hc with rfl | hc
      · decide
      · exact hx (url_chars (h.link l hl).1 hc)

theorem im_seen {i : Spec.Image} {a : Str} (h : i.Ok a) (r : Bool) : (if r then encodeHtml i.source false false else i.source) = (partsOf r i).text := by
  have el : linkOf (i.link.map (·.1)) = Spec.imageLink i.link := by cases i.link <;> rfl
  cases r with
  | false =>
    have e1 : i.align.map (fun a => if false = true then Spec.escape false a.mark else a.mark) = i.align.map Spec.ImAlign.mark := by simp
    have e2 : i.title.map (fun t => if false = true then Spec.escape false t else t) = i.title := by simp
    simp only [Bool.false_eq_true, if_false, ImParts.text, partsOf, el]
    cases h1 : i.align <;> cases h2 : i.title <;> simp [Spec.Image.source, h1, h2]
  | true =>
    have eg : encodeHtml (i.groups.flatMap Spec.Group.source) false false = i.groups.flatMap Spec.Group.source :=
      enc_id (fun c hc hm => group_chars h.atts hc (by simp at hm ⊢; simp [hm]))
    have eu : ∀ {u}, Spec.UrlOk u → encodeHtml u false false = u := fun hu =>
      enc_id (fun c hc hm => url_chars hu hc (by simp at hm ⊢; simp [hm]))
    have ek : encodeHtml (Spec.imageLink i.link) false false = Spec.imageLink i.link := by
      cases hl : i.link with
      | none => rfl
      | some l =>
        have := eu (h.link l hl).1
        rw [show Spec.imageLink (some l) = t!":" ++ l.1 from rfl, enc_append, this]; rfl
    have et : encodeHtml (Spec.inParens i.title) false false = Spec.inParens (i.title.map (fun t => if true = true then Spec.escape false t else t)) := by
      cases ht : i.title with
      | none => rfl
      | some t =>
        rw [show Spec.inParens (some t) = t!"(" ++ (t ++ t!")") from rfl, enc_append, enc_append]
        simp [Spec.inParens, escape_eq]
        rfl
    have ea : ∀ {x y : Str}, encodeHtml ('!' :: x) false false = '!' :: encodeHtml x false false := fun {_ _} => rfl
    rw [if_pos rfl]
    have es : i.source = '!' :: ((i.align.map Spec.ImAlign.mark).getD [] ++ (i.groups.flatMap Spec.Group.source ++ (i.url ++ (Spec.inParens i.title ++ ('!' :: Spec.imageLink i.link))))) := by
      cases h1 : i.align <;> simp [Spec.Image.source, h1]
    rw [es, show ∀ x, encodeHtml ('!' :: x) false false = '!' :: encodeHtml x false false from fun _ => rfl, enc_append, enc_append, enc_append, enc_append,
      show ∀ x, encodeHtml ('!' :: x) false false = '!' :: encodeHtml x false false from fun _ => rfl, eg, eu h.url, et, ek]
    simp only [ImParts.text, partsOf, el]
    congr 2
    cases h1 : i.align with
    | none => rfl
    | some b => simp [escape_eq]

theorem imSeen_eq {up : Char → Bool} {t : Spec.ImText} (h : t.Ok up) (r : Bool) :
    (if r then encodeHtml t.source false false else t.source) = imSeen r t := by
  have hp : ∀ ps : List (Spec.Image × Str), (∀ p ∈ ps, p.1.Ok p.2 ∧ Spec.Prose up p.2) →
      (if r then encodeHtml (Spec.imParts ps) false false else Spec.imParts ps) = ps.flatMap (fun p => (partsOf r p.1).text ++ p.2) := by
    intro ps
    induction ps with
    | nil => intro _; cases r <;> rfl
    | cons p ps ih =>
      intro h
      have ih := ih (fun q hq => h q (by simp [hq]))
      obtain ⟨h1, h2⟩ := h p (by simp)
      have h3 := im_seen h1 r
      have e : Spec.imParts (p :: ps) = p.1.source ++ (p.2 ++ Spec.imParts ps) := by simp [Spec.imParts]
      rw [List.flatMap_cons, e, ← ih, ← h3]
      cases r with
      | false => simp
      | true => simp only [if_true]; rw [enc_append, enc_append, enc_prose h2]; simp
  have := hp t.parts h.parts
  rw [imSeen, ← this, Spec.ImText.source]
  cases r with
  | false => rfl
  | true => simp only [if_true]; rw [enc_append, enc_prose h.lead]

theorem lined_of_last : ∀ {w : Str}, linedW w = true → (∀ c, w.getLast? = some c → c ≠ '\n') → lined w = true
  | [], _, _ => rfl
  | [c], _, h => by simpa [lined] using h c rfl
  | c :: d :: w, h, hl => by
    simp only [linedW, lined, Bool.and_eq_true] at h ⊢
    exact ⟨h.1, lined_of_last h.2 (fun x hx => hl x (by rw [List.getLast?_cons_cons]; exact hx))⟩

theorem imSeen_lined {up : Char → Bool} {r : Bool} : ∀ {ps : List (Spec.Image × Str)} {w : Str}, linedW w = true →
    (∀ p ∈ ps, p.1.Ok p.2 ∧ Spec.Prose up p.2) → (∀ c, (w ++ ps.flatMap (fun p => (partsOf r p.1).text ++ p.2)).getLast? = some c → c ≠ '\n') →
    lined (w ++ ps.flatMap (fun p => (partsOf r p.1).text ++ p.2)) = true
  | [], w, hw, _, hl => by simpa using lined_of_last hw (by simpa using hl)
  | p :: ps, w, hw, h, hl => by
    obtain ⟨h1, h2⟩ := h p (by simp)
    have ih := imSeen_lined (r := r) (ps := ps) (w := p.2) (prose_lined (up := up) h2.chars h2.lines) (fun q hq => h q (by simp [hq])) (fun c hc => by
      refine hl c ?_
      rw [List.flatMap_cons, List.append_assoc, ← List.append_assoc, getLast_append_ne]
      · exact hc
      · intro e; rw [e] at hc; cases hc)
    rw [List.flatMap_cons, List.append_assoc]
    refine lined_append hw (lined_text (fun hm => (text_nonl h1 r _ hm).1 rfl) ih) ?_
    intro _
    exact ⟨'!', _, rfl, by decide⟩

/-! ## The HTML -/

theorem attr_free {n : Str} {o : Option Str} (hn : '<' ∉ n) (h : ∀ v, o = some v → '<' ∉ v) : '<' ∉ Spec.attr n o := by
  cases o with
  | none => simp [Spec.attr]
  | some v => simp [Spec.attr, hn, h v rfl]

theorem element_free {i : Spec.Image} {a : Str} (h : i.Ok a) (r k : Bool) : ∃ u, i.element r k = t!"<img" ++ u ∧ '<' ∉ u := by
  refine ⟨_, rfl, ?_⟩
  have hv : ∀ v, i.atts.cls = some v ∨ i.atts.id = some v ∨ i.atts.language = some v ∨ v ∈ i.atts.declarations → '<' ∉ v := by
    intro v hv hm
    have : '<' ∈ i.atts.source := (att_value_infix hv).subset hm
    exact group_chars h.atts (show '<' ∈ i.groups.flatMap Spec.Group.source from this) (by decide)
  have ht : ∀ t, '<' ∉ Spec.titleValue r t := by
    intro t
    rw [Spec.titleValue, escape_eq]; exact enc_nolt
  have hown : ∀ v, (if r then none else i.atts.cls) = some v → '<' ∉ v := by
    intro v e
    cases r
    · exact hv v (.inl e)
    · cases e
  have hcls : ∀ v, i.classes r k = some v → '<' ∉ v := by
    intro v e
    cases k with
    | false => exact hown v e
    | true =>
      cases ha : i.align with
      | none => exact hown v (by simpa [Spec.Image.classes, ha] using e)
      | some b =>
        have hb : '<' ∉ t!"align-" ++ b.word := by cases b <;> decide
        simp only [Spec.Image.classes, ha, if_true, Option.some.injEq] at e
        cases ho : (if r then none else i.atts.cls) with
        | none => rw [ho] at e; subst e; exact hb
        | some o => rw [ho] at e; subst e; have := hown o ho; simp at hb ⊢; exact ⟨this, hb⟩
  simp only [List.mem_append, not_or]
  refine ⟨attr_free (by decide) ?_, attr_free (by decide) ?_, attr_free (by decide) hcls, attr_free (by decide) ?_,
    attr_free (by decide) (fun v e => hv v (.inr (.inr (.inl e)))), attr_free (by decide) ?_, attr_free (by decide) ?_, attr_free (by decide) ?_, by decide⟩
  · intro v e
    cases k with
    | true => cases e
    | false =>
      simp only [Bool.false_eq_true, if_false, Option.map_eq_some_iff] at e
      obtain ⟨b, -, rfl⟩ := e
      cases b <;> decide
  · rintro v ⟨⟩
    cases i.title with
    | none => simp
    | some t => exact ht t
  · intro v e
    cases r
    · exact hv v (.inr (.inl e))
    · cases e
  · rintro v ⟨⟩
    rw [escape_eq]; exact enc_nolt
  · intro v e
    split at e
    · cases e
    · cases e
      intro hm
      simp only [List.mem_append, List.mem_cons, List.not_mem_nil, or_false] at hm
      rcases hm with hm | hm
      · rcases mem_join hm with hm | ⟨d, hd, hm⟩
        · revert hm; decide
        · exact hv d (.inr (.inr (.inr hd))) hm
      · revert hm; decide
  · intro v e
    simp only [Option.map_eq_some_iff] at e
    obtain ⟨t, -, rfl⟩ := e
    exact ht t

theorem image_free {i : Spec.Image} {a : Str} (h : i.Ok a) (r k : Bool) : Free t!"<br" (i.html r k) ∧ ∃ u, i.html r k = '<' :: u := by
  obtain ⟨u, e, hu⟩ := element_free h r k
  have h1 : Free t!"<br" (i.element r k) := by
    rw [e]
    exact (Free.of (by decide)).append (Free.of_head rfl hu)
  cases hl : i.link with
  | none => simp only [Spec.Image.html, hl]; exact ⟨h1, _, by rw [e]; rfl⟩
  | some l =>
    simp only [Spec.Image.html, hl]
    refine ⟨?_, _, rfl⟩
    refine (Free.of (by decide)).append ((Free.of_head rfl (attr_free (by decide) ?_)).append ((Free.of (by decide)).append (h1.append (Free.of (by decide)))))
    rintro v ⟨⟩
    rw [escape_eq]; exact enc_nolt

theorem tidy_images {up : Char → Bool} {br z : Str} {r k : Bool} (hb : br = t!"<br>" ∨ br = t!"<br />") (hz : z.head? ≠ some '\n') :
    ∀ {ps : List (Spec.Image × Str)}, (∀ p ∈ ps, p.1.Ok p.2 ∧ Spec.Prose up p.2) →
    Spec.tidyBreaks br (ps.flatMap (fun p => p.1.html r k ++ brk br p.2) ++ z) =
      ps.flatMap (fun p => p.1.html r k ++ Spec.breakLines br p.2) ++ Spec.tidyBreaks br z ∧
    (ps.flatMap (fun p => p.1.html r k ++ brk br p.2) ++ z).head? ≠ some '\n'
  | [], _ => ⟨by simp, hz⟩
  | p :: ps, h => by
    obtain ⟨ih, ih'⟩ := tidy_images (r := r) (k := k) hb hz (ps := ps) (fun q hq => h q (by simp [hq]))
    obtain ⟨h1, h2⟩ := h p (by simp)
    obtain ⟨f1, u, f2⟩ := image_free h1 r k
    have e : (p :: ps).flatMap (fun p => p.1.html r k ++ brk br p.2) ++ z =
        p.1.html r k ++ (brk br p.2 ++ (ps.flatMap (fun p => p.1.html r k ++ brk br p.2) ++ z)) := by simp
    refine ⟨?_, ?_⟩
    · rw [e, tidyBreaks_free f1, tidy_brk hb (prose_lined (up := up) h2.chars h2.lines)
        (prose_nochar h2 (by decide) (by decide)) (fun _ => ih'), ih]
      simp
    · rw [e, f2]; simp

/-! ## Blocks -/

theorem im_text {C : Ctx} {base : Str} (D : DocCtx C base) (hz : C.cfg.getSizes = false) (hno : C.cfg.noimage = false) {t : Spec.ImText} (h : t.Ok C.U.isLu)
    (hR : t.Resolved (Spec.Resolves C.E.urlParse C.E.urlJoin C.cfg.restricted) (Spec.Reads C.E.urlParse C.E.urlJoin))
    (htok : ¬ C.cfg.uid <:+: imSeen C.cfg.restricted t) (hsrc : ¬ C.cfg.uid <:+: t.source) :
    InText C (imSeen C.cfg.restricted t) t.marks (¬ Spec.notelistWord <+: t.lead) (imMid C.cfg.brTag C.cfg.restricted (useAlignClass C.cfg) t)
      (t.html C.cfg.brTag C.cfg.restricted (useAlignClass C.cfg)) where
  lined := by
    refine imSeen_lined (prose_lined (up := C.U.isLu) h.lead.chars h.lead.lines) h.parts ?_
    intro c hc
    rintro rfl
    obtain ⟨u, hu⟩ := List.getLast?_eq_some_iff.1 hc
    have e := imSeen_eq h C.cfg.restricted
    rw [imSeen, hu] at e
    rcases List.eq_nil_or_concat t.parts with hp | ⟨ps, q, hp⟩
    · rw [hp] at hu
      exact h.last ⟨u, '\n', by simpa [Spec.ImText.source, hp, Spec.imParts] using hu, .inr rfl⟩
    · rw [List.concat_eq_append] at hp
      rw [hp, List.flatMap_append, ← List.append_assoc] at hc
      simp only [List.flatMap_cons, List.flatMap_nil, List.append_nil, ← List.append_assoc] at hc
      by_cases hq : q.2 = []
      · rw [hq, List.append_nil, getLast_append_ne (by simp [ImParts.text])] at hc
        exact (text_nonl (h.parts q (by rw [hp]; simp)).1 _ _ (List.mem_of_getLast? hc)).1 rfl
      · rw [getLast_append_ne hq] at hc
        obtain ⟨u, hu⟩ := List.getLast?_eq_some_iff.1 hc
        exact h.last ⟨t.lead ++ (Spec.imParts ps ++ (q.1.source ++ u)), '\n', by
          simp [Spec.ImText.source, Spec.imParts, hp, hu], .inr rfl⟩
  nocr := by
    intro hm
    simp only [imSeen, List.mem_append, List.mem_flatMap] at hm
    rcases hm with hm | ⟨p, hp, hm | hm⟩
    · exact prose_nochar h.lead (by decide) (by decide) hm
    · exact (text_nonl (h.parts p hp).1 _ _ hm).2 rfl
    · exact prose_nochar (h.parts p hp).2 (by decide) (by decide) hm
  begins := by
    have hrun := imSeen_run h C.cfg.restricted
    obtain ⟨m1, -, m3, m4⟩ := imM_ok
    refine ⟨?_, Auto.search_none D.uni m1 m3 (by decide) hrun, Re.isMatch_none (Auto.search_none D.uni m1 m4 (by decide) hrun)⟩
    obtain ⟨c, u, e, h1, h2⟩ := h.first
    cases hl : t.lead with
    | cons d v =>
      refine ⟨d, _, by simp only [imSeen, hl, List.cons_append]; rfl, ?_⟩
      have : d = c := by rw [Spec.ImText.source, hl] at e; simp at e; exact e.1
      subst this
      have hd := (h.lead.chars d (by rw [hl]; simp)).resolve_right h2
      exact (plain_nows hd h1).1
    | nil =>
      cases hp : t.parts with
      | nil => rw [Spec.ImText.source, hl, hp] at e; cases e
      | cons p ps =>
        exact ⟨'!', _, by simp only [imSeen, hl, hp, List.flatMap_cons, ImParts.text, List.cons_append, List.nil_append]; rfl, by decide⟩
  source := by
    intro σ
    refine ⟨_, _, _, im_source D hz hno h hR (contains_of_not htok) hsrc σ, fun hn => ?_⟩
    refine notelist_keyed D (fun hne => h.before ?_) (imSlots_keys _ _ _ _ _) hn
    rintro e
    rw [e] at hne
    exact hne rfl
  tidy := by
    intro z hz
    obtain ⟨h1, h2⟩ := tidy_images (r := C.cfg.restricted) (k := useAlignClass C.cfg) (brTag_cases C.cfg) hz h.parts
    rw [imMid, List.append_assoc, tidy_brk (brTag_cases C.cfg) (prose_lined (up := C.U.isLu) h.lead.chars h.lead.lines)
      (prose_nochar h.lead (by decide) (by decide)) (fun _ => h2), h1]
    simp [Spec.ImText.html]

/-- The block as it is seen. -/
def imBlockSeen (r : Bool) : Spec.ImBlock → Str
  | .other b => (b.seen r).source
  | .para t => imSeen r t
  | .styled tag a t => tag ++ (a.source ++ (t!". " ++ imSeen r t))
  | .quoted a t => t!"bq" ++ (a.source ++ (t!". " ++ imSeen r t))

theorem imBlock_seen {C : Ctx} (hU : UniOk C.U) {b : Spec.ImBlock} (h : b.Ok C.U.isLu C.U.isNd C.cfg.lite C.cfg.restricted) :
    (if C.cfg.restricted then encodeHtml b.source false false else b.source) = imBlockSeen C.cfg.restricted b := by
  have hs : ∀ {t : Spec.ImText}, t.Ok C.U.isLu → ∀ tag ∈ t!"bq" :: brTags, ∀ {a : Spec.Atts}, a.Ok → a.Written C.cfg.restricted →
      (if C.cfg.restricted then encodeHtml (tag ++ (a.source ++ (t!". " ++ t.source))) false false else tag ++ (a.source ++ (t!". " ++ t.source))) =
        tag ++ (a.source ++ (t!". " ++ imSeen C.cfg.restricted t)) := by
    intro t h1 tag ht a h2 h3
    have h4 := imSeen_eq h1 C.cfg.restricted
    by_cases hr : C.cfg.restricted = true
    · rw [if_pos hr] at h4 ⊢
      rw [hr] at h3
      have et : encodeHtml tag false false = tag := by
        rcases List.mem_cons.1 ht with rfl | ht
        · rfl
        · exact (tagged_chars tag ht).2.2.1
      rw [enc_append, enc_append, enc_append, et, enc_atts h2 h3, h4]
      rfl
    · rw [if_neg hr] at h4 ⊢
      rw [h4]
  cases b with
  | other b =>
    simp only [Spec.ImBlock.source, imBlockSeen, Spec.SgBlock.seen]
    by_cases hr : C.cfg.restricted = true
    · rw [if_pos hr, if_pos hr, (sgSeen_escaped hU hr h).2]
    · rw [if_neg hr, if_neg hr]
  | para t => exact imSeen_eq h.1 _
  | styled tag a t =>
    obtain ⟨h1, h2, h3, h4, h5, h6⟩ := h
    exact hs h1 tag (List.mem_cons_of_mem _ (tagged_mem h5).1) h2 h3
  | quoted a t =>
    obtain ⟨h1, h2, h3, h4, h5⟩ := h
    exact hs h1 t!"bq" (by simp) h2 h3

theorem act_im {C : Ctx} {base : Str} (D : DocCtx C base) (hp : C.cfg.linkPrefix = base ++ t!"-") (hz : C.cfg.getSizes = false) (hno : C.cfg.noimage = false)
    {ok : Char → Prop} (ha : ∀ c, c.toNat < 128 → ok c) {b : Spec.ImBlock} (hL : Lowers C.U ok)
    (h : b.Ok C.U.isLu C.U.isNd C.cfg.lite C.cfg.restricted) (hc : ∀ c ∈ b.chars, ok c)
    (hR : b.Resolved (Spec.Resolves C.E.urlParse C.E.urlJoin C.cfg.restricted) (Spec.Reads C.E.urlParse C.E.urlJoin) C.cfg.rel)
    (hsrc : ¬ C.cfg.uid <:+: b.source) (htok : ¬ C.cfg.uid <:+: imBlockSeen C.cfg.restricted b) (N : Spec.Numbers) (M : Spec.Notes) :
    Act C (fun σ => Num N σ ∧ FnState base aux0 M σ) (fun σ => Num (b.numbers N C.cfg.restricted) σ ∧ FnState base aux0 (b.notes M C.cfg.restricted) σ)
      (imBlockSeen C.cfg.restricted b) b.marks (b.html C.cfg.brTag C.cfg.restricted (useAlignClass C.cfg) base N M) := by
  have hP : ∀ σ σ' : PState, Keeps σ σ' → σ'.aux = σ.aux → (Num N σ ∧ FnState base aux0 M σ) → (Num N σ' ∧ FnState base aux0 M σ') :=
    fun σ σ' hk ha h => ⟨fun x => by rw [ha]; exact h.1 x, h.2.keeps hk⟩
  cases b with
  | other b =>
    have key : SgSeen C (b.seen C.cfg.restricted) ∧ (b.seen C.cfg.restricted).chars = b.chars ∧ (b.seen C.cfg.restricted).marks = b.marks ∧
        (b.seen C.cfg.restricted).Resolved (Spec.Resolves C.E.urlParse C.E.urlJoin C.cfg.restricted) C.cfg.rel := by
      unfold Spec.SgBlock.seen
      by_cases hr : C.cfg.restricted = true
      · rw [if_pos hr]
        exact ⟨(sgSeen_escaped D.uni hr h).1, sg_escaped.1, sg_escaped.2, sg_resolved hR⟩
      · rw [if_neg hr]
        exact ⟨sgSeen_plain hr h, rfl, rfl, hR⟩
    obtain ⟨k1, k2, k3, k4⟩ := key
    have := act_sg (aux0 := aux0) D hp ha hL k1 (by rw [k2]; exact hc) k4 htok N M
    rw [k3] at this
    exact this
  | para t =>
    obtain ⟨h1, h2, h3⟩ := h
    have hs : Spec.NoBlockStart C.U.isNd C.cfg.lite (imSeen C.cfg.restricted t) := by
      rw [← imSeen_eq h1]
      split
      · exact noBlockStart_enc D.uni h2
      · exact h2
    exact act_inPara D (im_text D hz hno h1 hR htok hsrc) h3 hs hP
  | styled tag a t =>
    obtain ⟨h1, h2, h3, h4, h5, h6⟩ := h
    exact act_inStyled D (im_text D hz hno h1 hR (fun hi => htok (infix_source (.inr hi))) (fun hi => hsrc (infix_source (.inr hi)))) h2 (.inl h4) h5 h6 htok hP
  | quoted a t =>
    obtain ⟨h1, h2, h3, h4, h5⟩ := h
    exact act_inQuoted D (im_text D hz hno h1 hR (fun hi => htok (infix_source (tag := t!"bq") (s := a.source) (.inr hi)))
      (fun hi => hsrc (infix_source (tag := t!"bq") (s := a.source) (.inr hi)))) h2 (.inl h4) h5 htok hP

def imKinds (cfg : Cfg) (base : Str) : Kinds Spec.ImBlock where
  src := Spec.ImBlock.source
  seen := imBlockSeen cfg.restricted
  marks := Spec.ImBlock.marks
  html := fun N M b => b.html cfg.brTag cfg.restricted (useAlignClass cfg) base N M
  numbers := fun N b => b.numbers N cfg.restricted
  notes := fun M b => b.notes M cfg.restricted

/-- What `parse` makes of documents with images. -/
theorem parse_images {E : Env} {fuel : Nat} {cfg : Cfg} {base : Str} (D : DocCtx ⟨E, cfg, fuel⟩ base) (hp : cfg.linkPrefix = base ++ t!"-")
    (hz : cfg.getSizes = false) (hno : cfg.noimage = false)
    (hbt : cfg.blockTags = true) (hsan : cfg.sanitizer = none) (hdep : 1 ≤ cfg.maxSpanDepth) {ok : Char → Prop}
    (ha : ∀ c, c.toNat < 128 → ok c) (hL : Lowers E.U ok) {ds : List (Spec.ImBlock × Nat)}
    (hne : ds ≠ []) (h : ∀ d ∈ ds, d.1.Ok E.U.isLu E.U.isNd cfg.lite cfg.restricted) (hc : ∀ d ∈ ds, ∀ c ∈ d.1.chars, ok c)
    (hR : ∀ d ∈ ds, d.1.Resolved (Spec.Resolves E.urlParse E.urlJoin cfg.restricted) (Spec.Reads E.urlParse E.urlJoin) cfg.rel)
    (htok : ¬ cfg.uid <:+: Spec.imSource ds) (hn : 2 * Spec.imMarks ds < 2 ^ 32) :
    parseFresh E fuel cfg (Spec.imSource ds) = .ok (Spec.imDocHtml cfg.brTag cfg.restricted (useAlignClass cfg) base ds) := by
  have := parse_kinds D hbt hsan hdep (β := Spec.ImBlock)
    (imKinds cfg base) hne
    (fun d hd => imBlock_seen (C := ⟨E, cfg, fuel⟩) D.uni (h d hd))
    (fun d hd h1 h2 N M => act_im D hp hz hno ha hL (h d hd) (hc d hd) (hR d hd) h1 h2 N M) htok hn
  have e : ∀ (ds : List (Spec.ImBlock × Nat)) N M, Kinds.docHtml (imKinds cfg base) N M ds =
      Spec.imHtml cfg.brTag cfg.restricted (useAlignClass cfg) base N M ds := by
    intro ds
    induction ds with
    | nil => intro _ _; rfl
    | cons d ds ih => intro N M; simp only [Kinds.docHtml, Spec.imHtml, ih]; rfl
  rw [e] at this
  exact this

end Rustextile
