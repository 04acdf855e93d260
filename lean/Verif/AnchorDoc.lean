import Verif.AnchorKey
import Verif.CiteDoc

/-!
# Documents with links with attributes and titles
-/

namespace Rustextile

open Prog

/-- The placeholders of links, and the state after they have been set aside. -/
def anSlots (uid : Str) (r : Bool) : PState → List (Spec.Anchor × Str) → List (Slot × Str) × PState
  | σ, [] => ([], σ)
  | σ, p :: ps => ((.key ((anTitled uid r σ p.1).refIndex + 1) (p.1.html r), p.2) :: (anSlots uid r (anShelved uid r σ p.1) ps).1,
      (anSlots uid r (anShelved uid r σ p.1) ps).2)

theorem anSlots_html (uid : Str) (r : Bool) : ∀ (ps : List (Spec.Anchor × Str)) (σ : PState),
    (anSlots uid r σ ps).1.map (fun p => (p.1.html, p.2)) = ps.map (fun p => (p.1.html r, p.2))
  | [], _ => rfl
  | p :: ps, σ => by
    rw [List.map_cons, ← anSlots_html uid r ps (anShelved uid r σ p.1)]
    rfl

theorem anSlots_after (uid : Str) (r : Bool) (ps : List (Spec.Anchor × Str)) (σ : PState) : (anSlots uid r σ ps).1.map (·.2) = ps.map (·.2) := by
  have := congrArg (List.map (·.2)) (anSlots_html uid r ps σ)
  rw [List.map_map, List.map_map] at this
  exact this

theorem anSlots_keys (uid : Str) (r : Bool) : ∀ (ps : List (Spec.Anchor × Str)) (σ : PState), ∀ p ∈ (anSlots uid r σ ps).1, ∃ n v, p.1 = .key n v
  | [], _, _, h => absurd h List.not_mem_nil
  | q :: ps, σ, p, h => by
    rcases List.mem_cons.1 h with rfl | h
    · exact ⟨_, _, rfl⟩
    · exact anSlots_keys uid r ps _ p h

theorem anSlots_grow (uid : Str) (r : Bool) : ∀ (ps : List (Spec.Anchor × Str)) (σ : PState),
    Grow uid σ (anSlots uid r σ ps).2 ∧ (anSlots uid r σ ps).2.aux = σ.aux ∧ (anSlots uid r σ ps).2.refIndex ≤ σ.refIndex + 3 * ps.length
  | [], σ => ⟨Grow.refl _ _, rfl, Nat.le_refl _⟩
  | p :: ps, σ => by
    obtain ⟨h1, h2, h3⟩ := anSlots_grow uid r ps (anShelved uid r σ p.1)
    obtain ⟨g1, g2⟩ := anShelved_grow uid r σ p.1
    have g3 := anShelved_index uid r σ p.1
    have g4 := anTitled_index uid r σ p.1
    refine ⟨g1.trans h1, h2.trans g2, ?_⟩
    simp only [anSlots, List.length_cons]
    omega

theorem anSlots_rep {base : Str} (hb : Spec.PlainBase base) (r : Bool) {τ : PState} : ∀ (ps : List (Spec.Anchor × Str)) (σ : PState),
    (∀ p ∈ ps, containsStr (uidOf base) p.1.source = false ∧ (∀ v, p.1.rel = some v → ':' ∉ v) ∧ ':' ∉ p.1.text) →
    Agrees (uidOf base) (anSlots (uidOf base) r σ ps).2 τ →
    (anSlots (uidOf base) r σ ps).2.refIndex < 2 ^ 32 → ∀ p ∈ (anSlots (uidOf base) r σ ps).1, ∀ n v, p.1 = .key n v → ∀ x h, Rep (uidOf base) τ x h →
      Rep (uidOf base) τ (shelfKey (uidOf base) n ++ x) (v ++ h)
  | [], _, _, _, _, _, h => absurd h List.not_mem_nil
  | q :: ps, σ, hc, ha, hi, p, h => by
    obtain ⟨h1, -, -⟩ := anSlots_grow (uidOf base) r ps (anShelved (uidOf base) r σ q.1)
    rcases List.mem_cons.1 h with rfl | h
    · intro n v e x y hr
      cases e
      obtain ⟨c1, c2, c3⟩ := hc q (by simp)
      exact anchor_rep hb c1 c2 c3 r (ha.before h1) (Nat.lt_of_le_of_lt h1.index hi) hr
    · exact anSlots_rep hb r ps _ (fun p hp => hc p (by simp [hp])) ha hi p h

/-! ## The links are found -/

theorem an_lk {C : Ctx} {base : Str} (D : DocCtx C base) {a : Spec.Anchor} {s g : Str} (h : a.Ok C.U.isLu s)
    (hl : LinkSlot C a.text a.url a.href a.rel s) (hg : '"' ∉ g) (r : Bool) : LkOk (anLk r (a, g)) where
  text := fun hm => (inner_chars h r _ hm).2.2 rfl
  first := by
    obtain ⟨c, u, e, h1, h2⟩ := (anchor_written h).2.1
    have hc := (plain_nows ((anchor_written h).1 c (by rw [e]; simp)) h1).1
    have hc' : c ≠ ':' := by
      rintro rfl
      exact absurd ((anchor_written h).1 ':' (by rw [e]; simp)) (by decide)
    simp only [anLk, AnSeen.inner, anchorSeen]
    cases hgs : a.groups with
    | nil => exact ⟨c, _, by rw [e]; rfl, hc, hc'⟩
    | cons g gs =>
      have h1 := h.atts.1 g (by show g ∈ a.groups; rw [hgs]; simp)
      rw [List.flatMap_cons]
      rcases group_body h1 with ⟨k, e, -⟩ | ⟨k, e, -⟩ | ⟨k, e, -⟩ <;> exact ⟨_, _, by rw [e]; rfl, by decide, by decide⟩
  last := by
    obtain ⟨u, c, e⟩ := (List.eq_nil_or_concat a.written).resolve_left (by obtain ⟨c, u, e, -⟩ := (anchor_written h).2.1; rw [e]; simp)
    rw [List.concat_eq_append] at e
    have hc : isWs c = false := (plain_nows ((anchor_written h).1 c (by rw [e]; simp)) (by rintro rfl; exact (anchor_written h).2.2 u e)).1
    simp only [anLk, AnSeen.inner, anchorSeen]
    cases a.title with
    | none => exact ⟨a.groups.flatMap Spec.Group.source ++ u, c, by rw [e]; simp [Spec.inParens], hc⟩
    | some t => exact ⟨a.groups.flatMap Spec.Group.source ++ (a.written ++ ('(' :: seenTitle r t)), ')', by simp [Spec.inParens], by decide⟩
  url := (linkText_lk hl hg).url
  urlq := (linkText_lk hl hg).urlq
  after := hg

theorem prose_gap {up : Char → Bool} {uid w z p : Str} (h : Spec.Prose up w) (e : w = p ++ z) : GapOk uid z := by
  have : ∀ {c}, c ∉ linesA.ascii → c.toNat < 128 → c ∉ z := fun h1 h2 hc => prose_nochar h h1 h2 (by rw [e]; simp [hc])
  exact ⟨keyed_text (this (by decide) (by decide)), this (by decide) (by decide), this (by decide) (by decide)⟩

/-- The links are replaced. -/
theorem scan_anchors {C : Ctx} {base : Str} (D : DocCtx C base) (n : Nat) : ∀ {ps : List (Spec.Anchor × Str)}
    (_ : ∀ p ∈ ps, p.1.Ok C.U.isLu p.2 ∧ Spec.Prose C.U.isLu p.2) (_ : ∀ p ∈ ps.dropLast, Spec.EndsInSpace p.2)
    (_ : ∀ p ∈ ps, p.1.Resolved (Spec.Resolves C.E.urlParse C.E.urlJoin C.cfg.restricted) (Spec.Absolute C.E.urlParse) C.cfg.rel) (pre : Str) (σ : PState),
    ScanP C (mkPat C.cfg.uid .links) (fLink C (spanN C (n + 1))) pre (lkMarked C.cfg.uid (ps.map (anLk C.cfg.restricted))) σ
      (slotsText C.cfg.uid (anSlots C.cfg.uid C.cfg.restricted σ ps).1) (anSlots C.cfg.uid C.cfg.restricted σ ps).2
  | [], _, _, _, _, _ => .nil
  | p :: ps, h, hb, hR, pre, σ => by
    have ih := fun pre σ => scan_anchors D n (ps := ps) (fun q hq => h q (by simp [hq])) (fun q hq => hb q (by
      rw [List.dropLast_cons_of_ne_nil (by rintro rfl; cases hq)]
      exact List.mem_cons_of_mem _ hq)) (fun q hq => hR q (by simp [hq])) pre σ
    obtain ⟨a, s⟩ := p
    obtain ⟨h1, h2⟩ := h (a, s) (by simp)
    have hR := hR (a, s) (by simp)
    simp only at h1 h2
    have hl := link_slot D h1.link hR.1 hR.2.1
    obtain ⟨p, z, e, hp, hz⟩ := hl.after
    have hlk := an_lk D h1 hl (g := []) (by simp) C.cfg.restricted
    have hit := link_head (U := C.U) (uid := C.cfg.uid) (pre := pre) (t := (anchorSeen C.cfg.restricted a).inner) (url := a.url ++ p)
      (rest := z ++ lkMarked C.cfg.uid (ps.map (anLk C.cfg.restricted)))
      (by rw [D.uid]; intro r h; simp [uidOf] at h) (by rw [D.uid]; simp [uidOf]) hlk.text
      (by
        intro c hc
        rcases List.mem_append.1 hc with hc | hc
        · exact hl.chars c hc
        · exact inUrl_punct (hp c hc))
      (by
        intro x hx hi
        rcases hz with rfl | ⟨y, r, rfl, hy⟩
        · cases ps with
          | nil => simp [lkMarked] at hx
          | cons q L =>
            obtain ⟨u, y, e', hy⟩ := ends_ws (hb (a, s) (by simp))
            simp only [e, List.append_nil] at e'
            have := inUrl_punct (hp y (by rw [e']; simp))
            rw [this.1] at hy; cases hy
        · simp at hx
          subst hx
          rw [hi.1] at hy; cases hy)
    have e1 : lkMarked C.cfg.uid (((a, s) :: ps).map (anLk C.cfg.restricted)) =
        (C.cfg.uid ++ linkMark ++ ('"' :: ((anchorSeen C.cfg.restricted a).inner ++ '"' :: ':' :: (a.url ++ p)))) ++
          (z ++ lkMarked C.cfg.uid (ps.map (anLk C.cfg.restricted))) := by
      rw [List.map_cons, lkMarked_cons]
      simp [anLk, e]
    have e2 : slotsText C.cfg.uid (anSlots C.cfg.uid C.cfg.restricted σ ((a, s) :: ps)).1 =
        (shelfKey C.cfg.uid ((anTitled C.cfg.uid C.cfg.restricted σ a).refIndex + 1) ++ p) ++
          (z ++ slotsText C.cfg.uid (anSlots C.cfg.uid C.cfg.restricted (anShelved C.cfg.uid C.cfg.restricted σ a) ps).1) := by
      rw [anSlots, slotsText_cons]; simp [e, Slot.str]
    rw [e1, e2]
    refine ScanP.hit hit (by simp) (fun gap => runs_anchor D h1 hl hp (anchor_scheme hR) rfl n σ) ?_
    refine ScanP.of_skips ?_ (ih _ _)
    have hg : GapOk (uidOf base) z := prose_gap h2 e
    have := fun pre => link_skips (U := C.U) (pre := pre) D.plain hg (ps.map (anLk C.cfg.restricted))
    rw [← D.uid] at this
    exact this _

theorem anSlots_keyed {uid : Str} {r : Bool} {up : Char → Bool} : ∀ {ps : List (Spec.Anchor × Str)} (_ : ∀ p ∈ ps, Spec.Prose up p.2) (σ : PState),
    Keyed uid (slotsText uid (anSlots uid r σ ps).1)
  | [], _, _ => .nil
  | p :: ps, h, σ => by
    rw [anSlots, slotsText_cons]
    exact .key (Keyed.text (linesA_nocolon (prose_over (h p (by simp)))) (anSlots_keyed (fun q hq => h q (by simp [hq])) _))

/-- The stage of the links. -/
theorem runs_anchors {C : Ctx} {base : Str} (D : DocCtx C base) {t : Spec.AnText} (h : t.Ok C.U.isLu)
    (hR : t.Resolved (Spec.Resolves C.E.urlParse C.E.urlJoin C.cfg.restricted) (Spec.Absolute C.E.urlParse) C.cfg.rel) (σ : PState) :
    Runs C (links C (span C) (anSeen C.cfg.restricted t)) (t.lead ++ slotsText C.cfg.uid (anSlots C.cfg.uid C.cfg.restricted σ t.parts).1) σ
      (anSlots C.cfg.uid C.cfg.restricted σ t.parts).2 := by
  have hf := D.fuel
  obtain ⟨f, hf⟩ : ∃ f, C.fuel = f + 1 + 1 := ⟨C.fuel - 2, by omega⟩
  have hend : containsStr (C.cfg.uid ++ t!"linkStartMarker:") (t.lead ++ slotsText C.cfg.uid (anSlots C.cfg.uid C.cfg.restricted σ t.parts).1) = false := by
    have hk : Keyed C.cfg.uid (t.lead ++ slotsText C.cfg.uid (anSlots C.cfg.uid C.cfg.restricted σ t.parts).1) :=
      Keyed.text (linesA_nocolon (prose_over h.lead)) (anSlots_keyed (fun p hp => (h.parts p hp).2) σ)
    rw [D.uid] at hk ⊢
    exact hk.clean D.plain ⟨'l', _, rfl, by decide⟩
  have hlead : GapOk (uidOf base) t.lead := prose_gap (p := []) h.lead rfl
  have hlks : ∀ p ∈ t.parts.map (anLk C.cfg.restricted), LkOk p := by
    intro p hp
    obtain ⟨q, hq, rfl⟩ := List.mem_map.1 hp
    obtain ⟨h1, h2⟩ := h.parts q hq
    exact an_lk D h1 (link_slot D h1.link (hR q hq).1 (hR q hq).2.1) (prose_nochar h2 (by decide) (by decide)) _
  have hs := scan_anchors D (C.cfg.maxSpanDepth + 1) h.parts h.between hR (t.lead.reverse ++ []) σ
  unfold links anSeen
  rw [markStart_eq (C := C) (by omega) hlead.quote hlks]
  refine Runs.bind (a := t.lead ++ lkMarked C.cfg.uid (t.parts.map (anLk C.cfg.restricted))) (Runs.pure _ _) ?_
  unfold replaceLinks
  refine Runs.bind (runs_getPat _ _) ?_
  rw [hf]
  have hs' : ScanP C (mkPat C.cfg.uid .links) (fLink C (spanN C (C.cfg.maxSpanDepth + 1 + 1))) [] (t.lead ++ lkMarked C.cfg.uid (t.parts.map (anLk C.cfg.restricted))) σ
      (t.lead ++ slotsText C.cfg.uid (anSlots C.cfg.uid C.cfg.restricted σ t.parts).1) (anSlots C.cfg.uid C.cfg.restricted σ t.parts).2 := by
    refine ScanP.of_skips ?_ hs
    have := link_skips (U := C.U) (pre := []) D.plain hlead (t.parts.map (anLk C.cfg.restricted))
    rw [← D.uid] at this
    exact this
  cases hl : t.parts with
  | nil =>
    rw [hl] at hend
    simp only [List.map_nil, lkMarked, List.flatMap_nil, List.append_nil, anSlots, slotsText] at hend ⊢
    simp only [linkLoop, hend, Bool.false_eq_true, if_false]
    exact Runs.pure _ _
  | cons p Q =>
    rw [hl] at hend hs'
    have hc : containsStr (C.cfg.uid ++ t!"linkStartMarker:") (t.lead ++ lkMarked C.cfg.uid ((p :: Q).map (anLk C.cfg.restricted))) = true := by
      rw [containsStr_iff]
      refine ⟨t.lead, '"' :: ((anLk C.cfg.restricted p).1 ++ (t!"\":" ++ ((anLk C.cfg.restricted p).2.1 ++ ((anLk C.cfg.restricted p).2.2 ++ lkMarked C.cfg.uid (Q.map (anLk C.cfg.restricted)))))), ?_⟩
      rw [List.map_cons, lkMarked_cons]
      simp [linkMark]
    simp only [linkLoop, hc, if_true]
    refine Runs.bind (ScanP.runs links_nonnull (fun m => rfl) hs') ?_
    split
    · exact Runs.pure _ _
    · simp only [hend, Bool.false_eq_true, if_false]
      exact Runs.pure _ _

/-- The HTML before newlines are put after the break tags. -/
def anTextMid (br : Str) (r : Bool) (t : Spec.AnText) : Str := brk br t.lead ++ t.parts.flatMap (fun p => p.1.html r ++ brk br p.2)

theorem anSlots_plain {base : Str} (hb : Spec.PlainBase base) {r : Bool} {up : Char → Bool} {w : Str} (hw : Spec.Prose up w) {ps : List (Spec.Anchor × Str)}
    (h : ∀ p ∈ ps, Spec.Prose up p.2) (σ : PState) : ∀ c ∈ w ++ slotsText (uidOf base) (anSlots (uidOf base) r σ ps).1, c ∉ t!"[{!" := by
  have hp : ∀ {w}, Spec.Prose up w → ∀ c ∈ w, c ∉ t!"[{!" := by
    intro w hw c hc hm
    have : ∀ c ∈ t!"[{!", c ∉ linesA.ascii ∧ c.toNat < 128 := by decide
    exact prose_nochar hw (this c hm).1 (this c hm).2 hc
  have hk : ∀ (ps : List (Spec.Anchor × Str)) (σ : PState), (∀ p ∈ ps, Spec.Prose up p.2) → ∀ c ∈ slotsText (uidOf base) (anSlots (uidOf base) r σ ps).1, c ∉ t!"[{!" := by
    intro ps
    induction ps with
    | nil => intro σ _ c hc; cases hc
    | cons p ps ih =>
      intro σ h c hc
      rw [anSlots, slotsText_cons] at hc
      simp only [List.mem_append, Slot.str] at hc
      rcases hc with hc | hc | hc
      · rcases key_chars hb hc with hc | rfl
        · exact (by decide : ∀ c ∈ asciiAlnum, c ∉ t!"[{!") c hc
        · decide
      · exact hp (h p (by simp)) c hc
      · exact ih _ (fun q hq => h q (by simp [hq])) c hc
  intro c hc
  rcases List.mem_append.1 hc with hc | hc
  · exact hp hw c hc
  · exact hk ps σ h c hc

theorem early_anchors {C : Ctx} {base : Str} (D : DocCtx C base) {t : Spec.AnText} (h : t.Ok C.U.isLu)
    (hR : t.Resolved (Spec.Resolves C.E.urlParse C.E.urlJoin C.cfg.restricted) (Spec.Absolute C.E.urlParse) C.cfg.rel) (σ : PState) :
    Runs C (grafEarly C (anSeen C.cfg.restricted t)) (t.lead ++ slotsText C.cfg.uid (anSlots C.cfg.uid C.cfg.restricted σ t.parts).1) σ
      (anSlots C.cfg.uid C.cfg.restricted σ t.parts).2 := by
  have hrun := anSeen_run h C.cfg.restricted
  obtain ⟨m1, m2, -, -⟩ := anM_ok
  have he : ∀ r ∈ anPatterns, r.search C.U [] (anSeen C.cfg.restricted t) = none :=
    fun r hr => Auto.search_none D.uni m1 (List.all_eq_true.1 m2 r hr) (by decide) hrun
  have e0 : anPatterns = [SP_NOTEXTILE_RE, SP_EQ_RE, SP_CODE_RE, SP_AT_RE, SP_PRE_RE, SP_COMMENT_RE, RESTRICTED_URLREF_RE,
      UNRESTRICTED_URLREF_RE, QUOTED_RE] := by decide +kernel
  rw [e0] at he
  simp only [List.mem_cons, List.not_mem_nil, or_false, forall_eq_or_imp, forall_eq] at he
  obtain ⟨e1, e2, e3, e4, e5, e6, e7, e8, e9⟩ := he
  have hst := runs_anchors D h hR σ
  have hpl := anSlots_plain (r := C.cfg.restricted) D.plain h.lead (fun p hp => (h.parts p hp).2) σ
  rw [← D.uid] at hpl
  have him : Runs C (unlessB C.cfg.noimage (image C) (t.lead ++ slotsText C.cfg.uid (anSlots C.cfg.uid C.cfg.restricted σ t.parts).1))
      (t.lead ++ slotsText C.cfg.uid (anSlots C.cfg.uid C.cfg.restricted σ t.parts).1) (anSlots C.cfg.uid C.cfg.restricted σ t.parts).2
      (anSlots C.cfg.uid C.cfg.restricted σ t.parts).2 := by
    refine Runs.unless (fun _ => ?_) (fun _ => ⟨rfl, rfl⟩)
    refine ScanP.runs (by decide +kernel) (fun m => rfl) ?_
    have := ScanP.of_skips (C := C) (f := fImage C) (pre := []) (image_skips (U := C.U) (rest := []) hpl) (σ := (anSlots C.cfg.uid C.cfg.restricted σ t.parts).2) .nil
    simpa using this
  unfold grafEarly
  generalize anSeen C.cfg.restricted t = s at *
  refine Runs.bind (a := s) (σ' := σ) ((Leaves.unless fun _ => ?_).runs σ) ?_
  · unfold noTextile; exact (Leaves.replaceP e1).bind (Leaves.replaceP e2)
  refine Runs.bind (a := s) (σ' := σ) ((Leaves.unless fun _ => ?_).runs σ) ?_
  · unfold code; exact (Leaves.replaceP e3).bind ((Leaves.replaceP e4).bind (Leaves.replaceP e5))
  refine Runs.bind (a := s) (σ' := σ) (Runs.none e6 σ) ?_
  refine Runs.bind (a := s) (σ' := σ) ?_ ?_
  · unfold getRefs; apply Runs.none; split <;> assumption
  refine Runs.bind (a := s) (σ' := σ) (Runs.none e9 σ) ?_
  exact Runs.bind hst him

theorem an_rep {C : Ctx} {base : Str} (D : DocCtx C base) {t : Spec.AnText} (h : t.Ok C.U.isLu)
    (hsrc : ¬ C.cfg.uid <:+: t.source) (σ : PState) :
    ∀ τ : PState, Agrees C.cfg.uid (anSlots C.cfg.uid C.cfg.restricted σ t.parts).2 τ →
      (anSlots C.cfg.uid C.cfg.restricted σ t.parts).2.refIndex < 2 ^ 32 →
      ∀ p ∈ (anSlots C.cfg.uid C.cfg.restricted σ t.parts).1, ∀ n v, p.1 = .key n v → ∀ r h, Rep C.cfg.uid τ r h →
      Rep C.cfg.uid τ (shelfKey C.cfg.uid n ++ r) (v ++ h) := by
  intro τ h1 h2
  rw [D.uid] at h1 h2 ⊢
  refine anSlots_rep D.plain _ t.parts σ ?_ h1 h2
  intro p hp
  have hlk := (h.parts p hp).1.link
  refine ⟨?_, fun v e hm => (by
    have := hlk.rel v e _ hm
    revert this; decide), linesA_nocolon (words_prose hlk.words).1⟩
  rw [← D.uid]
  refine contains_of_not (fun hi => hsrc (hi.trans ?_))
  obtain ⟨a, b, e⟩ := List.append_of_mem hp
  exact ⟨t.lead ++ Spec.anParts a, p.2 ++ Spec.anParts b, by simp [Spec.AnText.source, Spec.anParts, e]⟩

theorem an_source {C : Ctx} {base : Str} (D : DocCtx C base) {t : Spec.AnText} (h : t.Ok C.U.isLu)
    (hR : t.Resolved (Spec.Resolves C.E.urlParse C.E.urlJoin C.cfg.restricted) (Spec.Absolute C.E.urlParse) C.cfg.rel)
    (hsrc : ¬ C.cfg.uid <:+: t.source) (σ : PState) :
    Source C (anSeen C.cfg.restricted t) (t.lead ++ slotsText C.cfg.uid (anSlots C.cfg.uid C.cfg.restricted σ t.parts).1) [] t.marks σ
      (anSlots C.cfg.uid C.cfg.restricted σ t.parts).2 (anTextMid C.cfg.brTag C.cfg.restricted t) := by
  have hkeys := anSlots_keys C.cfg.uid C.cfg.restricted t.parts σ
  have haft := anSlots_after C.cfg.uid C.cfg.restricted t.parts σ
  have hhtml := anSlots_html C.cfg.uid C.cfg.restricted t.parts σ
  obtain ⟨g1, g2, g3⟩ := anSlots_grow C.cfg.uid C.cfg.restricted t.parts σ
  have hearly := early_anchors D h hR σ
  have hrep := an_rep D h hsrc σ
  have e2 : (anSlots C.cfg.uid C.cfg.restricted σ t.parts).1.flatMap (fun p => p.1.html ++ brk C.cfg.brTag p.2) =
      t.parts.flatMap (fun p => p.1.html C.cfg.restricted ++ brk C.cfg.brTag p.2) := by
    have := congrArg (fun l => l.flatMap (fun p : Str × Str => p.1 ++ brk C.cfg.brTag p.2)) hhtml
    simpa [List.flatMap_map] using this
  generalize hL : (anSlots C.cfg.uid C.cfg.restricted σ t.parts).1 = L at *
  generalize hS : (anSlots C.cfg.uid C.cfg.restricted σ t.parts).2 = σ1 at *
  have hnil : L ≠ [] → t.parts ≠ [] := by
    rintro hne e
    rw [e] at haft
    exact hne (List.map_eq_nil_iff.1 haft)
  have hkey' : ∀ n, '\n' ∉ shelfKey C.cfg.uid n := fun n => by rw [D.uid]; exact key_nonl D.plain n
  unfold anTextMid
  rw [← e2]
  refine keyed_source D h.lead (fun hne => h.before (hnil hne)) ?_ ?_ ?_ ?_ hearly g1 g2 (by simp only [Spec.AnText.marks]; omega) hrep
  · intro p hp
    refine ⟨hkeys p hp, ?_⟩
    have : p.2 ∈ t.parts.map (·.2) := by rw [← haft]; exact List.mem_map.2 ⟨p, hp, rfl⟩
    obtain ⟨q, hq, e⟩ := List.mem_map.1 this
    rw [← e]
    exact (h.parts q hq).2
  · intro p hp
    have : p.2 ∈ t.parts.dropLast.map (·.2) := by rw [List.map_dropLast, ← haft, ← List.map_dropLast]; exact List.mem_map.2 ⟨p, hp, rfl⟩
    obtain ⟨q, hq, e⟩ := List.mem_map.1 this
    rw [← e]
    exact h.between q hq
  · intro e0
    rw [List.append_eq_nil_iff] at e0
    obtain ⟨c, u, e, -⟩ := h.first
    cases hl : L with
    | nil =>
      rw [hl] at haft
      have := List.map_eq_nil_iff.1 haft.symm
      rw [Spec.AnText.source, this, e0.1] at e; cases e
    | cons p M =>
      obtain ⟨n, v, ek⟩ := hkeys p (by rw [hl]; simp)
      rw [hl, slotsText_cons, List.append_eq_nil_iff, ek] at e0
      exact key_ne e0.2.1
  · intro c hc
    rintro rfl
    rcases List.eq_nil_or_concat t.parts with hp | ⟨ps, q, hp⟩
    · rw [hp, List.map_nil, List.map_eq_nil_iff] at haft
      rw [haft] at hc
      simp only [slotsText, List.flatMap_nil, List.append_nil] at hc
      obtain ⟨u, hu⟩ := List.getLast?_eq_some_iff.1 hc
      exact h.last ⟨u, '\n', by simp [Spec.AnText.source, hp, hu, Spec.anParts], .inr rfl⟩
    · rw [List.concat_eq_append] at hp
      rw [hp] at haft
      rcases List.eq_nil_or_concat L with hl | ⟨M, p, hl⟩
      · rw [hl] at haft; simp at haft
      rw [List.concat_eq_append] at hl
      rw [hl] at haft hc
      simp only [List.map_append, List.map_cons, List.map_nil] at haft
      have h2 := (List.append_inj' haft rfl).2
      simp at h2
      have e1 : t.lead ++ slotsText C.cfg.uid (M ++ [p]) = (t.lead ++ (slotsText C.cfg.uid M ++ p.1.str C.cfg.uid)) ++ p.2 := by
        simp [slotsText]
      rw [e1] at hc
      by_cases hq : q.2 = []
      · rw [h2, hq, List.append_nil, ← List.append_assoc] at hc
        obtain ⟨n, v, ek⟩ := hkeys p (by rw [hl]; simp)
        rw [ek, show Slot.str C.cfg.uid (.key n v) = shelfKey C.cfg.uid n from rfl, getLast_append_ne key_ne] at hc
        exact hkey' n (List.mem_of_getLast? hc)
      · rw [h2, getLast_append_ne hq] at hc
        obtain ⟨u, hu⟩ := List.getLast?_eq_some_iff.1 hc
        exact h.last ⟨t.lead ++ (Spec.anParts ps ++ (q.1.source ++ u)), '\n', by
          simp [Spec.AnText.source, Spec.anParts, hp, hu], .inr rfl⟩

/-! ## The text that is seen -/

theorem an_seen {up : Char → Bool} {a : Spec.Anchor} {s : Str} (h : a.Ok up s) (r : Bool) :
    (if r then encodeHtml a.source false false else a.source) = '"' :: ((anchorSeen r a).inner ++ '"' :: ':' :: a.url) := by
  cases r with
  | false => cases ht : a.title <;> simp [Spec.Anchor.source, Spec.Anchor.inner, AnSeen.inner, anchorSeen, seenTitle, ht]
  | true =>
    have eg : encodeHtml (a.groups.flatMap Spec.Group.source) false false = a.groups.flatMap Spec.Group.source :=
      enc_id (fun c hc hm => by
        have := groups_plain (i := { groups := a.groups, url := [], src := [] }) h.atts c hc
        exact (by decide +kernel : ∀ c ∈ styleChars ++ t!";(){}[]", c ∉ t!"&<>\"'") c this (by simp at hm ⊢; simp [hm]))
    have eu : encodeHtml a.url false false = a.url := enc_id (fun c hc hm => by
      rcases urlChar_addr (h.link.chars c hc) with (hA | ⟨hA, -⟩) | rfl
      · exact (by decide : ∀ c ∈ addrA.ascii, c ∉ t!"&<>\"'") c hA (by simp at hm ⊢; simp [hm])
      · cases hA
      · revert hm; decide)
    have et : encodeHtml (Spec.inParens a.title) false false = Spec.inParens (a.title.map (seenTitle true)) := by
      cases ht : a.title with
      | none => rfl
      | some t =>
        rw [show Spec.inParens (some t) = t!"(" ++ (t ++ t!")") from rfl, enc_append, enc_append]
        simp [Spec.inParens, seenTitle, escape_eq]
        rfl
    have ex : encodeHtml a.written false false = a.written := enc_id (fun c hc => raw_plain (linesA_raw (linesA_iff.2 (.inl (plainA_iff.2 ((anchor_written h).1 c hc))))))
    rw [if_pos rfl, Spec.Anchor.source, Spec.Anchor.inner, show ∀ x, '"' :: x = t!"\"" ++ x from fun _ => rfl, enc_append, enc_append, enc_append, enc_append,
      show ∀ x, '"' :: ':' :: x = t!"\":" ++ x from fun _ => rfl, enc_append, eg, eu, et, ex]
    simp [AnSeen.inner, anchorSeen]
    rfl

theorem anSeen_eq {up : Char → Bool} {t : Spec.AnText} (h : t.Ok up) (r : Bool) :
    (if r then encodeHtml t.source false false else t.source) = anSeen r t := by
  have hp : ∀ ps : List (Spec.Anchor × Str), (∀ p ∈ ps, p.1.Ok up p.2 ∧ Spec.Prose up p.2) →
      (if r then encodeHtml (Spec.anParts ps) false false else Spec.anParts ps) = lkText (ps.map (anLk r)) := by
    intro ps
    induction ps with
    | nil => intro _; cases r <;> rfl
    | cons p ps ih =>
      intro h
      have ih := ih (fun q hq => h q (by simp [hq]))
      obtain ⟨h1, h2⟩ := h p (by simp)
      have h3 := an_seen h1 r
      have e : Spec.anParts (p :: ps) = p.1.source ++ (p.2 ++ Spec.anParts ps) := by simp [Spec.anParts]
      have e' : lkText ((p :: ps).map (anLk r)) = ('"' :: ((anchorSeen r p.1).inner ++ '"' :: ':' :: p.1.url)) ++ (p.2 ++ lkText (ps.map (anLk r))) := by
        rw [List.map_cons, lkText_cons]; simp [anLk]
      rw [e', e, ← ih, ← h3]
      cases r with
      | false => simp
      | true => simp only [if_true]; rw [enc_append, enc_append, enc_prose h2]
  have := hp t.parts h.parts
  rw [anSeen, ← this, Spec.AnText.source]
  cases r with
  | false => rfl
  | true => simp only [if_true]; rw [enc_append, enc_prose h.lead]

/-- A link as it is seen, without what is after it. -/
def anWhole (r : Bool) (a : Spec.Anchor) : Str := '"' :: ((anchorSeen r a).inner ++ '"' :: ':' :: a.url)

theorem lk_whole (r : Bool) (ps : List (Spec.Anchor × Str)) : lkText (ps.map (anLk r)) = ps.flatMap (fun p => anWhole r p.1 ++ p.2) := by
  induction ps with
  | nil => rfl
  | cons p ps ih => rw [List.map_cons, lkText_cons, List.flatMap_cons, ← ih]; simp [anLk, anWhole]

theorem whole_nonl {U : Uni} {a : Spec.Anchor} {s : Str} (h : a.Ok U.isLu s) (r : Bool) : ∀ c ∈ anWhole r a, c ≠ '\n' ∧ c ≠ '\r' := by
  intro c hc
  simp only [anWhole, List.mem_cons, List.mem_append] at hc
  rcases hc with rfl | hc | rfl | rfl | hc
  · decide
  · have := inner_chars h r c hc
    exact ⟨this.1, this.2.1⟩
  · decide
  · decide
  · rcases urlChar_addr (h.link.chars c hc) with (hA | ⟨hA, -⟩) | rfl
    · exact (by decide : ∀ c ∈ addrA.ascii, c ≠ '\n' ∧ c ≠ '\r') c hA
    · cases hA
    · decide

theorem anSeen_lined {U : Uni} {r : Bool} : ∀ {ps : List (Spec.Anchor × Str)} {w : Str}, linedW w = true →
    (∀ p ∈ ps, p.1.Ok U.isLu p.2 ∧ Spec.Prose U.isLu p.2) → (∀ c, (w ++ ps.flatMap (fun p => anWhole r p.1 ++ p.2)).getLast? = some c → c ≠ '\n') →
    lined (w ++ ps.flatMap (fun p => anWhole r p.1 ++ p.2)) = true
  | [], w, hw, _, hl => by simpa using lined_of_last hw (by simpa using hl)
  | p :: ps, w, hw, h, hl => by
    obtain ⟨h1, h2⟩ := h p (by simp)
    have ih := anSeen_lined (r := r) (ps := ps) (w := p.2) (prose_lined (up := U.isLu) h2.chars h2.lines) (fun q hq => h q (by simp [hq])) (fun c hc => by
      refine hl c ?_
      rw [List.flatMap_cons, List.append_assoc, ← List.append_assoc, getLast_append_ne]
      · exact hc
      · intro e; rw [e] at hc; cases hc)
    rw [List.flatMap_cons, List.append_assoc]
    refine lined_append hw (lined_text (fun hm => (whole_nonl h1 r _ hm).1 rfl) ih) ?_
    intro _
    exact ⟨'"', _, rfl, by decide⟩

/-! ## The HTML -/

theorem anchor_free {U : Uni} {a : Spec.Anchor} {s : Str} (h : a.Ok U.isLu s) (r : Bool) : Free t!"<br" (a.html r) ∧ ∃ u, a.html r = '<' :: u := by
  refine ⟨?_, _, rfl⟩
  have hv : ∀ v, a.atts.cls = some v ∨ a.atts.id = some v ∨ a.atts.language = some v ∨ v ∈ a.atts.declarations → '<' ∉ v := by
    intro v hv hm
    have hm : '<' ∈ a.groups.flatMap Spec.Group.source := (att_value_infix hv).subset hm
    exact (by decide +kernel : '<' ∉ styleChars ++ t!";(){}[]") (groups_plain (i := { groups := a.groups, url := [], src := [] }) h.atts _ hm)
  have key : ∀ x : Str, '<' ∉ x → Free t!"<br" (Spec.attr t!"class" (if r then none else a.atts.cls) ++
      (Spec.attr t!"href" (some (Spec.escape true a.href)) ++ (Spec.attr t!"id" (if r then none else a.atts.id) ++
      (Spec.attr t!"lang" a.atts.language ++ (Spec.attr t!"rel" a.rel ++
      (Spec.attr t!"style" (if r ∨ a.atts.declarations = [] then none else some (Spec.join t!"; " a.atts.declarations ++ t!";")) ++
      (Spec.attr t!"title" (a.title.map (Spec.titleValue r)) ++ (t!">" ++ x)))))))) := by
    intro x hx
    refine Free.of_head rfl ?_
    simp only [List.mem_append, not_or]
    refine ⟨attr_free (by decide) ?_, attr_free (by decide) ?_, attr_free (by decide) ?_, 
      attr_free (by decide) (fun v e => hv v (.inr (.inr (.inl e)))), attr_free (by decide) ?_, attr_free (by decide) ?_, attr_free (by decide) ?_, by decide, hx⟩
    · intro v e
      cases r
      · exact hv v (.inl e)
      · cases e
    · rintro v ⟨⟩
      rw [escape_eq]; exact enc_nolt
    · intro v e
      cases r
      · exact hv v (.inr (.inl e))
      · cases e
    · intro v e hm
      have := h.link.rel v e _ hm
      revert this; decide
    · intro v e
      split at e
      · cases e
      · cases e
        intro hm
        simp only [List.mem_append, List.mem_cons, List.not_mem_nil, or_false] at hm
        rcases hm with hm | hm
        · rcases mem_join hm with hm | ⟨d, hd, hm⟩
          · revert hm; decide
          · exact hv d (.inr (.inr (.inr hd))) hm
        · revert hm; decide
    · intro v e
      simp only [Option.map_eq_some_iff] at e
      obtain ⟨t, -, rfl⟩ := e
      rw [Spec.titleValue, escape_eq]; exact enc_nolt
  have := (Free.of (n := t!"<br") (w := t!"<a") (by decide)).append ((key a.text (fun hm => not_linesA (c := '<') (by decide) (by decide) ((words_prose h.link.words).1 _ hm))).append
    (Free.of (n := t!"<br") (w := t!"</a>") (by decide)))
  simpa [Spec.Anchor.html] using this

theorem tidy_anchors {U : Uni} {br z : Str} {r : Bool} (hb : br = t!"<br>" ∨ br = t!"<br />") (hz : z.head? ≠ some '\n') :
    ∀ {ps : List (Spec.Anchor × Str)}, (∀ p ∈ ps, p.1.Ok U.isLu p.2 ∧ Spec.Prose U.isLu p.2) →
    Spec.tidyBreaks br (ps.flatMap (fun p => p.1.html r ++ brk br p.2) ++ z) =
      ps.flatMap (fun p => p.1.html r ++ Spec.breakLines br p.2) ++ Spec.tidyBreaks br z ∧
    (ps.flatMap (fun p => p.1.html r ++ brk br p.2) ++ z).head? ≠ some '\n'
  | [], _ => ⟨by simp, hz⟩
  | p :: ps, h => by
    obtain ⟨ih, ih'⟩ := tidy_anchors (r := r) hb hz (ps := ps) (fun q hq => h q (by simp [hq]))
    obtain ⟨h1, h2⟩ := h p (by simp)
    obtain ⟨f1, u, f2⟩ := anchor_free h1 r
    have e : (p :: ps).flatMap (fun p => p.1.html r ++ brk br p.2) ++ z =
        p.1.html r ++ (brk br p.2 ++ (ps.flatMap (fun p => p.1.html r ++ brk br p.2) ++ z)) := by simp
    refine ⟨?_, ?_⟩
    · rw [e, tidyBreaks_free f1, tidy_brk hb (prose_lined (up := U.isLu) h2.chars h2.lines)
        (prose_nochar h2 (by decide) (by decide)) (fun _ => ih'), ih]
      simp
    · rw [e, f2]; simp

/-! ## Blocks -/

theorem an_lined {U : Uni} {t : Spec.AnText} (h : t.Ok U.isLu) (r : Bool) : lined (anSeen r t) = true := by
  rw [anSeen, lk_whole]
  refine anSeen_lined (prose_lined (up := U.isLu) h.lead.chars h.lead.lines) h.parts ?_
  intro c hc
  rintro rfl
  obtain ⟨u, hu⟩ := List.getLast?_eq_some_iff.1 hc
  rcases List.eq_nil_or_concat t.parts with hp | ⟨ps, q, hp⟩
  · rw [hp] at hu
    exact h.last ⟨u, '\n', by simpa [Spec.AnText.source, hp, Spec.anParts] using hu, .inr rfl⟩
  · rw [List.concat_eq_append] at hp
    rw [hp, List.flatMap_append, ← List.append_assoc] at hc
    simp only [List.flatMap_cons, List.flatMap_nil, List.append_nil, ← List.append_assoc] at hc
    by_cases hq : q.2 = []
    · rw [hq, List.append_nil, getLast_append_ne (by simp [anWhole])] at hc
      exact (whole_nonl (h.parts q (by rw [hp]; simp)).1 _ _ (List.mem_of_getLast? hc)).1 rfl
    · rw [getLast_append_ne hq] at hc
      obtain ⟨u, hu⟩ := List.getLast?_eq_some_iff.1 hc
      exact h.last ⟨t.lead ++ (Spec.anParts ps ++ (q.1.source ++ u)), '\n', by
        simp [Spec.AnText.source, Spec.anParts, hp, hu], .inr rfl⟩

theorem an_nocr {U : Uni} {t : Spec.AnText} (h : t.Ok U.isLu) (r : Bool) : '\r' ∉ anSeen r t := by
  intro hm
  simp only [anSeen, lk_whole, List.mem_append, List.mem_flatMap] at hm
  rcases hm with hm | ⟨p, hp, hm | hm⟩
  · exact prose_nochar h.lead (by decide) (by decide) hm
  · exact (whole_nonl (h.parts p hp).1 _ _ hm).2 rfl
  · exact prose_nochar (h.parts p hp).2 (by decide) (by decide) hm

theorem an_text {C : Ctx} {base : Str} (D : DocCtx C base) {t : Spec.AnText} (h : t.Ok C.U.isLu)
    (hR : t.Resolved (Spec.Resolves C.E.urlParse C.E.urlJoin C.cfg.restricted) (Spec.Absolute C.E.urlParse) C.cfg.rel)
    (hsrc : ¬ C.cfg.uid <:+: t.source) (hsp : t.source.head? ≠ some ' ') :
    InText C (anSeen C.cfg.restricted t) t.marks (¬ Spec.notelistWord <+: t.lead) (anTextMid C.cfg.brTag C.cfg.restricted t)
      (t.html C.cfg.brTag C.cfg.restricted) where
  lined := an_lined h _
  nocr := an_nocr h _
  begins := by
    have hrun := anSeen_run h C.cfg.restricted
    obtain ⟨m1, -, m3, m4⟩ := anM_ok
    refine ⟨?_, Auto.search_none D.uni m1 m3 (by decide) hrun, Re.isMatch_none (Auto.search_none D.uni m1 m4 (by decide) hrun)⟩
    obtain ⟨c, u, e, h2⟩ := h.first
    have h1 : c ≠ ' ' := by rintro rfl; rw [e] at hsp; exact hsp rfl
    cases hl : t.lead with
    | cons d v =>
      refine ⟨d, _, by simp only [anSeen, hl, List.cons_append]; rfl, ?_⟩
      have : d = c := by rw [Spec.AnText.source, hl] at e; simp at e; exact e.1
      subst this
      have hd := (h.lead.chars d (by rw [hl]; simp)).resolve_right h2
      exact (plain_nows hd h1).1
    | nil =>
      cases hp : t.parts with
      | nil => rw [Spec.AnText.source, hl, hp] at e; cases e
      | cons p ps =>
        exact ⟨'"', _, by simp only [anSeen, hl, hp, List.map_cons, lkText_cons, List.nil_append]; rfl, by decide⟩
  source := by
    intro σ
    refine ⟨_, _, _, an_source D h hR hsrc σ, fun hn => ?_⟩
    refine notelist_keyed D (fun hne => h.before ?_) (anSlots_keys _ _ _ _) hn
    rintro e
    rw [e] at hne
    exact hne rfl
  tidy := by
    intro z hz
    obtain ⟨h1, h2⟩ := tidy_anchors (r := C.cfg.restricted) (brTag_cases C.cfg) hz h.parts
    rw [anTextMid, List.append_assoc, tidy_brk (brTag_cases C.cfg) (prose_lined (up := C.U.isLu) h.lead.chars h.lead.lines)
      (prose_nochar h.lead (by decide) (by decide)) (fun _ => h2), h1]
    simp [Spec.AnText.html]

/-- The block as it is seen. -/
def anBlockSeen (r : Bool) : Spec.AnBlock → Str
  | .other b => citeSeen r b
  | .para t => anSeen r t
  | .styled tag a t => tag ++ (a.source ++ (t!". " ++ anSeen r t))
  | .quoted a t => t!"bq" ++ (a.source ++ (t!". " ++ anSeen r t))

theorem anBlock_seen {C : Ctx} (hU : UniOk C.U) {b : Spec.AnBlock} (h : b.Ok C.U.isLu C.U.isNd C.cfg.lite C.cfg.restricted) :
    (if C.cfg.restricted then encodeHtml b.source false false else b.source) = anBlockSeen C.cfg.restricted b := by
  have hs : ∀ {t : Spec.AnText}, t.Ok C.U.isLu → ∀ tag ∈ t!"bq" :: brTags, ∀ {a : Spec.Atts}, a.Ok → a.Written C.cfg.restricted →
      (if C.cfg.restricted then encodeHtml (tag ++ (a.source ++ (t!". " ++ t.source))) false false else tag ++ (a.source ++ (t!". " ++ t.source))) =
        tag ++ (a.source ++ (t!". " ++ anSeen C.cfg.restricted t)) := by
    intro t h1 tag ht a h2 h3
    have h4 := anSeen_eq h1 C.cfg.restricted
    by_cases hr : C.cfg.restricted = true
    · rw [if_pos hr] at h4 ⊢
      rw [hr] at h3
      have et : encodeHtml tag false false = tag := by
        rcases List.mem_cons.1 ht with rfl | ht
        · rfl
        · exact (tagged_chars tag ht).2.2.1
      rw [enc_append, enc_append, enc_append, et, enc_atts h2 h3, h4]
      rfl
    · rw [if_neg hr] at h4 ⊢
      rw [h4]
  cases b with
  | other b => exact cite_seen hU h
  | para t => exact anSeen_eq h.1 _
  | styled tag a t =>
    obtain ⟨h1, h2, h3, h4, h5, h6⟩ := h
    exact hs h1 tag (List.mem_cons_of_mem _ (tagged_mem h5).1) h2 h3
  | quoted a t =>
    obtain ⟨h1, h2, h3, h4, h5⟩ := h
    exact hs h1 t!"bq" (by simp) h2 h3

theorem act_an {C : Ctx} {base : Str} (D : DocCtx C base) (hp : C.cfg.linkPrefix = base ++ t!"-") (hcap : C.cfg.capsTempl = capsTemplate C.cfg.uid) (hz : C.cfg.getSizes = false) (hno : C.cfg.noimage = false)
    {ok : Char → Prop} (ha : ∀ c, c.toNat < 128 → ok c) {b : Spec.AnBlock} (hL : Lowers C.U ok)
    (h : b.Ok C.U.isLu C.U.isNd C.cfg.lite C.cfg.restricted) (hc : ∀ c ∈ b.chars, ok c)
    (hR : b.Resolved (Spec.Resolves C.E.urlParse C.E.urlJoin C.cfg.restricted) (Spec.Reads C.E.urlParse C.E.urlJoin) (Spec.Absolute C.E.urlParse) C.cfg.rel)
    (hsrc : ¬ C.cfg.uid <:+: b.source) (htok : ¬ C.cfg.uid <:+: anBlockSeen C.cfg.restricted b) (N : Spec.Numbers) (M : Spec.Notes) :
    Act C (fun σ => Num N σ ∧ FnState base {} M σ) (fun σ => Num (b.numbers N C.cfg.restricted) σ ∧ FnState base {} (b.notes M C.cfg.restricted) σ)
      (anBlockSeen C.cfg.restricted b) b.marks (b.html C.cfg.html5 C.cfg.brTag C.cfg.restricted (useAlignClass C.cfg) base N M) := by
  have hP : ∀ σ σ' : PState, Keeps σ σ' → σ'.aux = σ.aux → (Num N σ ∧ FnState base {} M σ) → (Num N σ' ∧ FnState base {} M σ') :=
    fun σ σ' hk ha h => ⟨fun x => by rw [ha]; exact h.1 x, h.2.keeps hk⟩
  cases b with
  | other b => exact act_cite D hp hcap hz hno ha hL h hc hR hsrc htok N M
  | para t =>
    obtain ⟨h1, h2, h3, h4⟩ := h
    have hs : Spec.NoBlockStart C.U.isNd C.cfg.lite (anSeen C.cfg.restricted t) := by
      rw [← anSeen_eq h1]
      split
      · exact noBlockStart_enc D.uni h2
      · exact h2
    exact act_inPara D (an_text D h1 hR hsrc h4) h3 hs hP
  | styled tag a t =>
    obtain ⟨h1, h2, h3, h4, h5, h6, h7⟩ := h
    exact act_inStyled D (an_text D h1 hR (fun hi => hsrc (infix_source (.inr hi))) h7) h2 (.inl h4) h5 h6 htok hP
  | quoted a t =>
    obtain ⟨h1, h2, h3, h4, h5, h6⟩ := h
    exact act_inQuoted D (an_text D h1 hR (fun hi => hsrc (infix_source (tag := t!"bq") (s := a.source) (.inr hi))) h6) h2 (.inl h4) h5 htok hP

def anKinds (cfg : Cfg) (base : Str) : Kinds Spec.AnBlock where
  src := Spec.AnBlock.source
  seen := anBlockSeen cfg.restricted
  marks := Spec.AnBlock.marks
  html := fun N M b => b.html cfg.html5 cfg.brTag cfg.restricted (useAlignClass cfg) base N M
  numbers := fun N b => b.numbers N cfg.restricted
  notes := fun M b => b.notes M cfg.restricted

/-- What `parse` makes of documents with links with attributes and titles. -/
theorem parse_anchors {E : Env} {fuel : Nat} {cfg : Cfg} {base : Str} (D : DocCtx ⟨E, cfg, fuel⟩ base) (hp : cfg.linkPrefix = base ++ t!"-")
    (hcap : cfg.capsTempl = capsTemplate cfg.uid)
    (hz : cfg.getSizes = false) (hno : cfg.noimage = false)
    (hbt : cfg.blockTags = true) (hsan : cfg.sanitizer = none) (hdep : 1 ≤ cfg.maxSpanDepth) {ok : Char → Prop}
    (ha : ∀ c, c.toNat < 128 → ok c) (hL : Lowers E.U ok) {ds : List (Spec.AnBlock × Nat)}
    (hne : ds ≠ []) (h : ∀ d ∈ ds, d.1.Ok E.U.isLu E.U.isNd cfg.lite cfg.restricted) (hc : ∀ d ∈ ds, ∀ c ∈ d.1.chars, ok c)
    (hR : ∀ d ∈ ds, d.1.Resolved (Spec.Resolves E.urlParse E.urlJoin cfg.restricted) (Spec.Reads E.urlParse E.urlJoin) (Spec.Absolute E.urlParse) cfg.rel)
    (htok : ¬ cfg.uid <:+: Spec.anSource ds) (hn : 2 * Spec.anMarks ds < 2 ^ 32) :
    parseFresh E fuel cfg (Spec.anSource ds) = .ok (Spec.anDocHtml cfg.html5 cfg.brTag cfg.restricted (useAlignClass cfg) base ds) := by
  have := parse_kinds D hbt hsan hdep (β := Spec.AnBlock)
    (anKinds cfg base) hne
    (fun d hd => anBlock_seen (C := ⟨E, cfg, fuel⟩) D.uni (h d hd))
    (fun d hd h1 h2 N M => act_an D hp hcap hz hno ha hL (h d hd) (hc d hd) (hR d hd) h1 h2 N M) htok hn
  have e : ∀ (ds : List (Spec.AnBlock × Nat)) N M, Kinds.docHtml (anKinds cfg base) N M ds =
      Spec.anHtml cfg.html5 cfg.brTag cfg.restricted (useAlignClass cfg) base N M ds := by
    intro ds
    induction ds with
    | nil => intro _ _; rfl
    | cons d ds ih => intro N M; simp only [Kinds.docHtml, Spec.anHtml, ih]; rfl
  rw [e] at this
  exact this

end Rustextile
