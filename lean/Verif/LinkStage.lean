import Verif.LinkRe

/-!
# Links in a text with other elements
-/

namespace Rustextile

open Prog

/-! ## What is looked for before links -/

/-- Text with placeholders, marked parts and links. -/
def linkA : Alpha := ⟨asciiAlnum ++ t!" ,./$\n*?-_%+~^:\"=#", true⟩

theorem linkA_wf : linkA.wf = true := by decide
theorem linkA_need : [SP_PRE_RE, SP_COMMENT_RE, RESTRICTED_URLREF_RE, UNRESTRICTED_URLREF_RE].all (·.need linkA) = true := by decide +kernel

def quotedOpen : List Item := (match QUOTED_RE with | .seq _ (.seq (.grp 1 (.set _ it)) _) => it | _ => [])

theorem QUOTED_shape : QUOTED_RE = .seq (.set false [.chr ' ']) (.seq (.grp 1 (.set false quotedOpen))
    (.seq (.grp 2 (.alt (.alt (.set false [.chr '"']) .eps) (.seq (.set false [.chr '"']) (.seq (.set true [.chr '"']) (.star true (.set true [.chr '"']))))))
      (.seq (.grp 3 (.set true [.chr '\n'])) (.set false [.chr ' '])))) := by kernel_rfl

theorem quoted_open {U : Uni} {c : Char} (h : evalSet U false quotedOpen c = true) (hA : linkA.Mem c) : c = '"' := by
  have h1 : c ∈ t!"\"'({[«»‹›„‚‘”" := by
    have e : quotedOpen = (t!"\"'({[«»‹›„‚‘”").map .chr := by kernel_rfl
    rw [e] at h
    simp only [evalSet, List.any_map, bne_iff_ne, ne_eq, Bool.not_eq_false, List.any_eq_true, Function.comp] at h
    obtain ⟨d, hd, hc⟩ := h
    simp only [Item.eval, beq_iff_eq] at hc
    rw [char_toNat_inj hc]; exact hd
  have h2 : ∀ c ∈ t!"\"'({[«»‹›„‚‘”", c ≠ '"' → c ∉ linkA.ascii ∧ (c.toNat < 128 ∨ c ∈ specialChars) := by decide
  rcases Decidable.em (c = '"') with e | e
  · exact e
  · exfalso
    obtain ⟨g1, g2⟩ := h2 c h1 e
    rcases hA with hA | ⟨-, hA, -, hA'⟩
    · exact g1 hA
    · rcases g2 with g2 | g2
      · omega
      · exact hA' g2

theorem quoted_none {U : Uni} {t : Str} (hA : linkA.Over t) (h : ∀ a x y b, t = a ++ ' ' :: '"' :: x :: y :: b → x ≠ '"' ∧ y ≠ ' ') :
    QUOTED_RE.search U [] t = none := by
  apply Re.search_none_of
  intro a b e
  cases hl : QUOTED_RE.all U ⟨a.reverse ++ [], b⟩ [] with
  | nil => rfl
  | cons p l =>
    exfalso
    obtain ⟨w, rest, rfl, -, ht⟩ := Takes.of_mem (p := p) (by rw [hl]; simp)
    rw [QUOTED_shape] at ht
    obtain ⟨u1, v1, s1, rfl, t1, ht⟩ := ht.seq
    obtain ⟨rfl, -⟩ := t1.chr
    obtain ⟨u2, v2, s2, rfl, t2, ht⟩ := ht.seq
    obtain ⟨s3, t2, -⟩ := t2.grp
    obtain ⟨o, rfl, ho, -⟩ := t2.set
    have := quoted_open ho (hA o (by rw [e]; simp))
    subst this
    obtain ⟨u3, v3, s4, rfl, t3, ht⟩ := ht.seq
    obtain ⟨s5, t3, -⟩ := t3.grp
    obtain ⟨u4, v4, s6, rfl, t4, ht⟩ := ht.seq
    obtain ⟨s7, t4, -⟩ := t4.grp
    obtain ⟨x, rfl, -, -⟩ := t4.set
    obtain ⟨rfl, -⟩ := ht.chr
    have hstart : u3 = [] ∨ ∃ r, u3 = '"' :: r := by
      rcases t3.alt with t3 | t3
      · rcases t3.alt with t3 | t3
        · exact .inr ⟨[], t3.chr.1⟩
        · exact .inl t3.eps.1
      · obtain ⟨u5, v5, s8, rfl, t5, -⟩ := t3.seq
        rw [t5.chr.1]; exact .inr ⟨_, rfl⟩
    rcases hstart with rfl | ⟨r, rfl⟩
    · exact (h a x ' ' rest (by rw [e]; simp)).2 rfl
    · cases r with
      | nil => exact (h a '"' x (' ' :: rest) (by rw [e]; simp)).1 rfl
      | cons y r => exact (h a '"' y (r ++ x :: ' ' :: rest) (by rw [e]; simp)).1 rfl

/-- Where the quotes are. -/
theorem lk_quote : ∀ (L : List Lk) (w A B : Str), '"' ∉ w → (∀ p ∈ L, LkOk p) → w ++ lkText L = A ++ '"' :: B →
    ∃ p ∈ L, (∃ r, B = p.1 ++ '"' :: ':' :: r) ∨ ∃ s r, A = s ++ p.1 ∧ B = ':' :: r
  | [], w, A, B, hw, _, e => by
    simp only [lkText, List.flatMap_nil, List.append_nil] at e
    exact absurd (by rw [e]; simp) hw
  | p :: L, w, A, B, hw, h, e => by
    have hp := h p (by simp)
    rw [lkText_cons] at e
    rcases List.append_eq_append_iff.1 e with ⟨s, rfl, e2⟩ | ⟨s, e1, e2⟩
    · cases s with
      | nil =>
        simp only [List.nil_append, List.cons.injEq, true_and] at e2
        exact ⟨p, by simp, .inl ⟨_, by rw [← e2]; simp; rfl⟩⟩
      | cons y s =>
        simp only [List.cons_append, List.cons.injEq] at e2
        obtain ⟨rfl, e2⟩ := e2
        rcases List.append_eq_append_iff.1 e2 with ⟨s', rfl, e3⟩ | ⟨s', e3, e4⟩
        · cases s' with
          | nil =>
            simp only [List.nil_append, List.cons_append, List.cons.injEq, true_and] at e3
            exact ⟨p, by simp, .inr ⟨w ++ ['"'], _, by simp, e3.symm⟩⟩
          | cons y s' =>
            simp only [List.cons_append, List.nil_append, List.cons.injEq] at e3
            obtain ⟨rfl, e3⟩ := e3
            cases s' with
            | nil => simp at e3
            | cons y s' =>
              simp only [List.cons_append, List.cons.injEq] at e3
              obtain ⟨rfl, e3⟩ := e3
              have e4 : (p.2.1 ++ p.2.2) ++ lkText L = s' ++ '"' :: B := by rw [← e3]; simp
              obtain ⟨q, hq, hr⟩ := lk_quote L (p.2.1 ++ p.2.2) s' B (by have := hp.urlq; have := hp.after; simp [*])
                (fun q hq => h q (by simp [hq])) e4
              refine ⟨q, by simp [hq], ?_⟩
              rcases hr with hr | ⟨z, r, h1, h2⟩
              · exact .inl hr
              · exact .inr ⟨w ++ '"' :: (p.1 ++ '"' :: ':' :: z), r, by rw [h1]; simp, h2⟩
        · cases s' with
          | nil =>
            simp only [List.append_nil, List.nil_append, List.cons_append, List.cons.injEq, true_and] at e3 e4
            exact ⟨p, by simp, .inr ⟨w ++ ['"'], _, by rw [e3]; simp, e4⟩⟩
          | cons y s' =>
            simp only [List.cons_append, List.cons.injEq] at e4
            exact absurd (by rw [e3, e4.1]; simp) hp.text
    · cases s with
      | nil =>
        simp only [List.nil_append, List.cons.injEq, true_and] at e2
        exact ⟨p, by simp, .inl ⟨_, by rw [e2]; simp; rfl⟩⟩
      | cons y s =>
        simp only [List.cons_append, List.cons.injEq] at e2
        exact absurd (by rw [e1, ← e2.1]; simp) hw

theorem lk_quoted_none {U : Uni} {L : List Lk} {w : Str} (hw : '"' ∉ w) (h : ∀ p ∈ L, LkOk p) (hs : ∀ p ∈ L, ∀ c u, p.1 = c :: u → u.head? ≠ some ' ')
    (hA : linkA.Over (w ++ lkText L)) : QUOTED_RE.search U [] (w ++ lkText L) = none := by
  refine quoted_none hA ?_
  intro a x y b e
  obtain ⟨p, hp, ⟨r, hr⟩ | ⟨s, r, h1, h2⟩⟩ := lk_quote L w (a ++ [' ']) (x :: y :: b) hw h (by rw [e]; simp)
  · obtain ⟨c, u, hc, -⟩ := (h p hp).first
    have hsec := hs p hp c u hc
    have htx := (h p hp).text
    rw [hc] at hr htx
    simp only [List.cons_append, List.cons.injEq] at hr
    refine ⟨by rw [hr.1]; rintro rfl; exact htx (by simp), ?_⟩
    cases u with
    | nil => simp at hr; rw [hr.2.1]; decide
    | cons z u => simp at hr; rw [hr.2.1]; simpa using hsec
  · obtain ⟨u, c, hc, hws⟩ := (h p hp).last
    rw [hc, ← List.append_assoc] at h1
    have := (List.append_inj' h1 rfl).2
    simp at this
    rw [← this] at hws
    exact absurd hws (by decide)

/-- What is set aside for a link. -/
def selLink : Slot → Option (Str × Str × Str)
  | .inl (.link t _ href rel) => some (Spec.escape true href, t!"<a href=", t!"\"" ++ relAttr rel ++ t!">" ++ t ++ t!"</a>")
  | _ => none

/-- The links, with the rest as text between them. -/
def linkMerge (uid : Str) : Str → List (Slot × Str) → Str × List Lk
  | w, [] => (w, [])
  | w, (.inl (.link t url _ _), a) :: L => (w, (t, url, (linkMerge uid a L).1) :: (linkMerge uid a L).2)
  | w, (s, a) :: L => linkMerge uid (w ++ (s.str uid ++ a)) L

theorem linkMerge_none {uid w a : Str} {s : Slot} {L : List (Slot × Str)} (h : selLink s = none) :
    linkMerge uid w ((s, a) :: L) = linkMerge uid (w ++ (s.str uid ++ a)) L := by
  rw [linkMerge]
  rintro t url x y rfl
  cases h

theorem linkMerge_text (uid : Str) : ∀ (L : List (Slot × Str)) (w : Str),
    (linkMerge uid w L).1 ++ lkText (linkMerge uid w L).2 = w ++ slotsText uid L
  | [], w => by simp [linkMerge, lkText, slotsText]
  | (s, a) :: L, w => by
    cases h : selLink s with
    | none => rw [linkMerge_none h, linkMerge_text uid L _, slotsText_cons]; simp
    | some q =>
      unfold selLink at h
      split at h
      · have := linkMerge_text uid L a
        rw [slotsText_cons, ← this]
        simp [linkMerge, lkText_cons, Slot.str, Spec.Inline.source]
      · cases h

theorem linkMerge_append (uid p : Str) : ∀ (L : List (Slot × Str)) (w : Str),
    linkMerge uid (p ++ w) L = (p ++ (linkMerge uid w L).1, (linkMerge uid w L).2)
  | [], w => by simp [linkMerge]
  | (s, a) :: L, w => by
    cases h : selLink s with
    | none => rw [linkMerge_none h, linkMerge_none h, List.append_assoc, linkMerge_append uid p L _]
    | some q =>
      unfold selLink at h
      split at h
      · simp [linkMerge]
      · cases h

/-- Text with placeholders, without quotes and brackets. -/
structure GapOk (uid w : Str) : Prop where
  keyed : Keyed uid w
  quote : '"' ∉ w
  bracket : '[' ∉ w

theorem GapOk.append {uid a b : Str} (ha : GapOk uid a) (hb : GapOk uid b) : GapOk uid (a ++ b) :=
  ⟨ha.keyed.append hb.keyed, by simp [ha.quote, hb.quote], by simp [ha.bracket, hb.bracket]⟩

/-- A link that is replaced, with the text after it. -/
structure LinkSlot (C : Ctx) (t url href : Str) (rel : Option Str) (a : Str) : Prop where
  text : LinkText C.U t
  second : ∀ c u, t = c :: u → u.head? ≠ some ' '
  address : LinkUrl url
  chars : ∀ c ∈ url, InUrl c
  ne : url ≠ []
  leads : LinkTo C url href
  plain : encodeHtml href true true = Spec.escape true href
  relation : rel = C.cfg.rel
  relOk : ∀ r, rel = some r → ∀ c ∈ r, c ∉ t!"&<>\"'\n\r\t"
  after : ∃ p z, a = p ++ z ∧ (∀ c ∈ p, c ∈ t!"!?:;.,") ∧ (z = [] ∨ ∃ x y, z = x :: y ∧ isWs x = true)

/-- An element and the text after it, in this stage. -/
structure LinksOk (C : Ctx) (p : Slot × Str) : Prop where
  after : ':' ∉ p.2 ∧ '"' ∉ p.2 ∧ '[' ∉ p.2
  other : selLink p.1 = none → GapOk C.cfg.uid (p.1.str C.cfg.uid)
  this : ∀ t url href rel, p.1 = .inl (.link t url href rel) → LinkSlot C t url href rel p.2

theorem keyed_text {uid w : Str} (h : ':' ∉ w) : Keyed uid w := by
  have := Keyed.text (uid := uid) h .nil
  simpa using this

theorem LinksOk.gap {C : Ctx} {p : Slot × Str} (h : LinksOk C p) : GapOk C.cfg.uid p.2 := ⟨keyed_text h.after.1, h.after.2.1, h.after.2.2⟩

theorem selLink_some {s : Slot} {q : Str × Str × Str} (h : selLink s = some q) : ∃ t url href rel, s = .inl (.link t url href rel) := by
  unfold selLink at h
  split at h
  · exact ⟨_, _, _, _, rfl⟩
  · cases h

theorem linkText_lk {C : Ctx} {t url href : Str} {rel : Option Str} {a g : Str} (h : LinkSlot C t url href rel a) (hg : '"' ∉ g) : LkOk (t, url, g) where
  text := by
    intro hm
    exact not_linesA (c := '"') (by decide) (by decide) (h.text.over _ hm)
  first := by
    obtain ⟨c, u, e, hc⟩ := h.text.first
    refine ⟨c, u, e, hc, ?_⟩
    rintro rfl
    exact not_linesA (c := ':') (by decide) (by decide) (h.text.over _ (by rw [e]; simp))
  last := by
    rcases List.eq_nil_or_concat t with e | ⟨u, c, e⟩
    · obtain ⟨c, u, e', -⟩ := h.text.first
      rw [e] at e'; cases e'
    · rw [List.concat_eq_append] at e
      exact ⟨u, c, e, h.text.last c (by rw [e]; simp)⟩
  url := by
    obtain ⟨c, u, e⟩ := List.exists_cons_of_ne_nil h.ne
    exact ⟨c, u, e, (h.chars c (by rw [e]; simp)).1⟩
  urlq := fun hm => (h.chars _ hm).2 (by decide)
  after := hg

theorem linkMerge_lk {C : Ctx} : ∀ (L : List (Slot × Str)) (w : Str), (∀ p ∈ L, LinksOk C p) → '"' ∉ w →
    '"' ∉ (linkMerge C.cfg.uid w L).1 ∧ ∀ p ∈ (linkMerge C.cfg.uid w L).2, LkOk p
  | [], w, _, hw => ⟨hw, fun _ hp => absurd hp List.not_mem_nil⟩
  | (s, a) :: L, w, h, hw => by
    have h0 := h (s, a) (by simp)
    have hL : ∀ p ∈ L, LinksOk C p := fun p hp => h p (by simp [hp])
    cases hs : selLink s with
    | none =>
      rw [linkMerge_none hs]
      refine linkMerge_lk L _ hL ?_
      have h1 := (h0.other hs).quote
      have h2 := h0.after.2.1
      simp only at h1 h2
      simp [hw, h1, h2]
    | some q =>
      obtain ⟨t, url, href, rel, rfl⟩ := selLink_some hs
      obtain ⟨i1, i2⟩ := linkMerge_lk L a hL h0.after.2.1
      refine ⟨hw, ?_⟩
      intro p hp
      rw [linkMerge] at hp
      rcases List.mem_cons.1 hp with rfl | hp
      · exact linkText_lk (h0.this t url href rel rfl) i1
      · exact i2 p hp

theorem linkMerge_second {C : Ctx} : ∀ (L : List (Slot × Str)) (w : Str), (∀ p ∈ L, LinksOk C p) →
    ∀ p ∈ (linkMerge C.cfg.uid w L).2, ∀ c u, p.1 = c :: u → u.head? ≠ some ' '
  | [], _, _ => fun _ hp => absurd hp List.not_mem_nil
  | (s, a) :: L, w, h => by
    have h0 := h (s, a) (by simp)
    have hL : ∀ p ∈ L, LinksOk C p := fun p hp => h p (by simp [hp])
    cases hs : selLink s with
    | none =>
      rw [linkMerge_none hs]
      exact linkMerge_second L _ hL
    | some q =>
      obtain ⟨t, url, href, rel, rfl⟩ := selLink_some hs
      intro p hp
      rw [linkMerge] at hp
      rcases List.mem_cons.1 hp with rfl | hp
      · exact (h0.this t url href rel rfl).second
      · exact linkMerge_second L a hL p hp

theorem mark_coloned {base : Str} (L : List Lk) : Coloned (lkMarked (uidOf base) L) := by
  cases L with
  | nil => exact .nil
  | cons p L => rw [lkMarked_cons, List.append_assoc]; exact uid_colon _ _

theorem link_skips {U : Uni} {base : Str} (hb : Spec.PlainBase base) {w pre : Str} (h : GapOk (uidOf base) w) (L : List Lk) :
    Skips U (mkPat (uidOf base) .links) pre w (lkMarked (uidOf base) L) := by
  intro u x v e
  rw [List.cons_append]
  refine link_none (by rintro rfl; exact h.bracket (by rw [e]; simp)) ?_
  have := Keyed.no_mark hb (k := linkMark) ⟨'l', _, rfl, by decide⟩ h.keyed (mark_coloned (base := base) L) u (x :: v) e (by simp)
  simpa using this

theorem inUrl_punct {c : Char} (h : c ∈ t!"!?:;.,") : InUrl c := by
  have : ∀ c ∈ t!"!?:;.,", isWs c = false ∧ c ∉ t!"|^'\"*" := by decide
  exact this c h

/-- The links are replaced. -/
theorem scan_links {C : Ctx} {base : Str} (D : DocCtx C base) (n : Nat) :
    ∀ (L : List (Slot × Str)) (w pre : Str) (σ : PState), (∀ p ∈ L, LinksOk C p) → GapOk C.cfg.uid w →
    (∀ p ∈ L.dropLast, ∃ u x, p.2 = u ++ [x] ∧ isWs x = true) →
    ScanP C (mkPat C.cfg.uid .links) (fLink C (spanN C (n + 1))) pre
      ((linkMerge C.cfg.uid w L).1 ++ lkMarked C.cfg.uid (linkMerge C.cfg.uid w L).2) σ
      (w ++ slotsText C.cfg.uid (stageU selLink C.cfg.uid σ L).1) (stageU selLink C.cfg.uid σ L).2
  | [], w, pre, σ, _, hw, _ => by
    simp only [stageU, slotsText, List.flatMap_nil, linkMerge]
    rw [D.uid] at hw ⊢
    exact ScanP.of_skips (link_skips D.plain hw []) .nil
  | (s, a) :: L, w, pre, σ, hL, hw, hb => by
    have h0 := hL (s, a) (by simp)
    have hL' : ∀ p ∈ L, LinksOk C p := fun p hp => hL p (by simp [hp])
    have ha : L ≠ [] → ∃ u x, a = u ++ [x] ∧ isWs x = true := fun hne => hb (s, a) (by
      rw [List.dropLast_cons_of_ne_nil hne]; simp)
    have hb' : ∀ p ∈ L.dropLast, ∃ u x, p.2 = u ++ [x] ∧ isWs x = true := by
      intro p hp
      refine hb p ?_
      rw [List.dropLast_cons_of_ne_nil (by rintro rfl; cases hp)]
      exact List.mem_cons_of_mem _ hp
    cases hs : selLink s with
    | none =>
      rw [linkMerge_none hs, stageU_none hs, slotsText_cons]
      have := scan_links D n L (w ++ (s.str C.cfg.uid ++ a)) pre σ hL' (hw.append ((h0.other hs).append h0.gap)) hb'
      simpa using this
    | some q =>
      obtain ⟨t, url, href, rel, rfl⟩ := selLink_some hs
      have h1 := h0.this t url href rel rfl
      obtain ⟨p, z, e, hp, hz⟩ := h1.after
      simp only at e
      have hg : GapOk C.cfg.uid z := by
        have := h0.after
        simp only [e, List.mem_append, not_or] at this
        exact ⟨keyed_text this.1.2, this.2.1.2, this.2.2.2⟩
      rw [stageU_some rfl, slotsText_cons]
      have ih := scan_links D n L z ((C.cfg.uid ++ linkMark ++ ('"' :: (t ++ '"' :: ':' :: (url ++ p)))).reverse ++ (w.reverse ++ pre))
        (σ.addressed C.cfg.uid (Spec.escape true href) t!"<a href=" (t!"\"" ++ relAttr rel ++ t!">" ++ t ++ t!"</a>")) hL' hg hb'
      have hlk := linkText_lk h1 (g := []) (by simp)
      have hit := link_head (U := C.U) (uid := C.cfg.uid) (pre := w.reverse ++ pre) (t := t) (url := url ++ p)
        (rest := (linkMerge C.cfg.uid z L).1 ++ lkMarked C.cfg.uid (linkMerge C.cfg.uid z L).2)
        (by rw [D.uid]; intro r h; simp [uidOf] at h) (by rw [D.uid]; simp [uidOf]) hlk.text
        (by
          intro c hc
          rcases List.mem_append.1 hc with hc | hc
          · exact h1.chars c hc
          · exact inUrl_punct (hp c hc))
        (by
          intro x hx hi
          rcases hz with rfl | ⟨y, r, rfl, hy⟩
          · cases L with
            | nil => simp [linkMerge, lkMarked] at hx
            | cons q L =>
              obtain ⟨u, y, e', hy⟩ := ha (by simp)
              rw [e, List.append_nil] at e'
              have := inUrl_punct (hp y (by rw [e']; simp))
              rw [this.1] at hy; cases hy
          · have : linkMerge C.cfg.uid (y :: r) L = linkMerge C.cfg.uid ([y] ++ r) L := rfl
            rw [this, linkMerge_append] at hx
            simp at hx
            subst hx
            rw [hi.1] at hy; cases hy)
      have hrun : ∀ gap, Runs C (fLink C (spanN C (n + 1)) ⟨gap, C.cfg.uid ++ linkMark ++ ('"' :: (t ++ '"' :: ':' :: (url ++ p))), [(3, url ++ p), (2, t)]⟩)
          (shelfKey C.cfg.uid (σ.refIndex + 2) ++ p) σ
          (σ.addressed C.cfg.uid (Spec.escape true href) t!"<a href=" (t!"\"" ++ relAttr rel ++ t!">" ++ t ++ t!"</a>")) := by
        intro gap
        have hr := h1.relOk
        rw [h1.relation] at hr ⊢
        rw [← h1.plain]
        exact runs_fLink D hr rfl h1.text h1.address hp h1.leads n σ
      have step := ScanP.hit hit (by simp) hrun ih
      have hm : linkMerge C.cfg.uid a L = (p ++ (linkMerge C.cfg.uid z L).1, (linkMerge C.cfg.uid z L).2) := by rw [e, linkMerge_append]
      have sk := ScanP.of_skips (C := C) (f := fLink C (spanN C (n + 1))) (pre := pre) (by
        have := link_skips (U := C.U) (pre := pre) D.plain (by rw [← D.uid]; exact hw) ((t, url, (linkMerge C.cfg.uid a L).1) :: (linkMerge C.cfg.uid a L).2)
        rw [← D.uid] at this
        exact this) (σ := σ) (rest := lkMarked C.cfg.uid ((t, url, (linkMerge C.cfg.uid a L).1) :: (linkMerge C.cfg.uid a L).2)) (by
          rw [lkMarked_cons, hm]
          simp only
          have e1 : C.cfg.uid ++ linkMark ++ '"' :: (t ++ (t!"\":" ++ (url ++ ((p ++ (linkMerge C.cfg.uid z L).1) ++ lkMarked C.cfg.uid (linkMerge C.cfg.uid z L).2)))) =
            (C.cfg.uid ++ linkMark ++ ('"' :: (t ++ '"' :: ':' :: (url ++ p)))) ++ ((linkMerge C.cfg.uid z L).1 ++ lkMarked C.cfg.uid (linkMerge C.cfg.uid z L).2) := by simp
          rw [e1]
          exact step)
      rw [show linkMerge C.cfg.uid w ((.inl (.link t url href rel), a) :: L) = (w, (t, url, (linkMerge C.cfg.uid a L).1) :: (linkMerge C.cfg.uid a L).2) from rfl]
      simp only [Slot.str]
      rw [e] at sk ⊢
      simpa using sk

theorem stageU_id {sel : Slot → Option (Str × Str × Str)} {uid : Str} : ∀ (L : List (Slot × Str)) (σ : PState),
    (∀ p ∈ L, sel p.1 = none) → stageU sel uid σ L = (L, σ)
  | [], _, _ => rfl
  | (s, a) :: L, σ, h => by
    rw [stageU_none (h (s, a) (by simp)), stageU_id L σ (fun p hp => h p (by simp [hp]))]

theorem linkMerge_nil {uid : Str} : ∀ (L : List (Slot × Str)) (w : Str), (linkMerge uid w L).2 = [] → ∀ p ∈ L, selLink p.1 = none
  | [], _, _ => by simp
  | (s, a) :: L, w, h => by
    cases hs : selLink s with
    | none =>
      rw [linkMerge_none hs] at h
      intro p hp
      rcases List.mem_cons.1 hp with rfl | hp
      · exact hs
      · exact linkMerge_nil L _ h p hp
    | some q =>
      obtain ⟨t, url, href, rel, rfl⟩ := selLink_some hs
      cases h

/-- The stage of the links. -/
theorem runs_links {C : Ctx} {base : Str} (D : DocCtx C base)
    {L : List (Slot × Str)} {w : Str} {σ : PState} (hL : ∀ p ∈ L, LinksOk C p) (hw : GapOk C.cfg.uid w)
    (hb : ∀ p ∈ L.dropLast, ∃ u x, p.2 = u ++ [x] ∧ isWs x = true)
    (hend : containsStr (C.cfg.uid ++ t!"linkStartMarker:") (w ++ slotsText C.cfg.uid (stageU selLink C.cfg.uid σ L).1) = false) :
    Runs C (links C (span C) (w ++ slotsText C.cfg.uid L)) (w ++ slotsText C.cfg.uid (stageU selLink C.cfg.uid σ L).1) σ
      (stageU selLink C.cfg.uid σ L).2 := by
  obtain ⟨h1, h2⟩ := linkMerge_lk L w hL hw.quote
  have hf := D.fuel
  obtain ⟨f, hf⟩ : ∃ f, C.fuel = f + 1 + 1 := ⟨C.fuel - 2, by omega⟩
  unfold links
  have hm := markStart_eq (C := C) (by omega) h1 h2
  rw [linkMerge_text] at hm
  rw [hm]
  refine Runs.bind (a := (linkMerge C.cfg.uid w L).1 ++ lkMarked C.cfg.uid (linkMerge C.cfg.uid w L).2) (Runs.pure _ _) ?_
  unfold replaceLinks
  refine Runs.bind (runs_getPat _ _) ?_
  rw [hf]
  cases hl : (linkMerge C.cfg.uid w L).2 with
  | nil =>
    have hn := linkMerge_nil L w hl
    have ht := linkMerge_text C.cfg.uid L w
    rw [hl] at ht
    rw [stageU_id L σ hn] at hend ⊢
    simp only [lkMarked, lkText, List.flatMap_nil, List.append_nil] at ht ⊢
    rw [ht]
    simp only [linkLoop, hend, Bool.false_eq_true, if_false]
    exact Runs.pure _ _
  | cons p Q =>
    have hc : containsStr (C.cfg.uid ++ t!"linkStartMarker:") ((linkMerge C.cfg.uid w L).1 ++ lkMarked C.cfg.uid (p :: Q)) = true := by
      rw [containsStr_iff]
      refine ⟨(linkMerge C.cfg.uid w L).1, '"' :: (p.1 ++ (t!"\":" ++ (p.2.1 ++ (p.2.2 ++ lkMarked C.cfg.uid Q)))), ?_⟩
      rw [lkMarked_cons]
      simp [linkMark]
    have hs := scan_links D (C.cfg.maxSpanDepth + 1) L w [] σ hL hw hb
    rw [hl] at hs
    simp only [linkLoop, hc, if_true]
    refine Runs.bind (ScanP.runs links_nonnull (fun m => rfl) hs) ?_
    split
    · exact Runs.pure _ _
    · simp only [hend, Bool.false_eq_true, if_false]
      exact Runs.pure _ _

end Rustextile
