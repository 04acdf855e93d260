import Verif.AnchorText

/-!
# Links with attributes and titles are set aside
-/

namespace Rustextile

open Prog

/-- The tag of a link up to its address, and the attributes after it but the title. -/
def anHead (r : Bool) (a : Spec.Anchor) : Str := t!"<a" ++ (Spec.attr t!"class" (if r then none else a.atts.cls) ++ t!" href=")

def anMid (r : Bool) (a : Spec.Anchor) (rest : Str) : Str :=
  '"' :: (Spec.attr t!"id" (if r then none else a.atts.id) ++ (Spec.attr t!"lang" a.atts.language ++ (Spec.attr t!"rel" a.rel ++
    (Spec.attr t!"style" (attsOf r a.atts).style ++ rest))))

/-- The link with this address and this title. -/
def anTag (r : Bool) (a : Spec.Anchor) (u : Str) (ti : Option Str) : Str :=
  anHead r a ++ '"' :: (u ++ anMid r a (Spec.attr t!"title" ti ++ (t!">" ++ (a.text ++ t!"</a>"))))

theorem anchor_style (r : Bool) (a : Spec.Anchor) : (attsOf r a.atts).style =
    if r ∨ a.atts.declarations = [] then none else some (Spec.join t!"; " a.atts.declarations ++ t!";") := by
  have hl : a.atts.layout = [] := rfl
  cases r <;> by_cases h : a.atts.declarations = [] <;> simp [attsOf, hl, h]

theorem anchor_html (r : Bool) (a : Spec.Anchor) : a.html r = anTag r a (Spec.escape true a.href) (a.title.map (Spec.titleValue r)) := by
  unfold Spec.Anchor.html anTag anHead anMid
  rw [anchor_style]
  simp [Spec.attr]

def withRel (h : HtmlAttrs) : Option Str → HtmlAttrs
  | some w => HtmlAttrs.insert t!"rel" w h
  | none => h

theorem an_attrs (c i l s ti rel : Option Str) (u : Str) :
    withRel (withTitle (HtmlAttrs.insert t!"href" u (BAttrs.html { cls := c, id := i, lang := l, style := s })) ti) rel =
    (c.toList.map (t!"class", ·)) ++ ((some u).toList.map (t!"href", ·) ++ ((i.toList.map (t!"id", ·)) ++ ((l.toList.map (t!"lang", ·)) ++ ((rel.toList.map (t!"rel", ·)) ++
      ((s.toList.map (t!"style", ·)) ++ (ti.toList.map (t!"title", ·))))))) := by
  cases rel <;> cases c <;> cases i <;> cases l <;> cases s <;> cases ti <;> rfl

theorem attrs_given {k : Str} {o : Option Str} (h : ∀ v, o = some v → ∀ c ∈ v, c ∉ t!"&<>\"'\n\r\t") :
    (o.toList.map (k, ·)).flatMap attrText = Spec.attr k o := by
  cases o with
  | none => rfl
  | some v => simp [attrText, quoteattr_plain (h v rfl), Spec.attr]

theorem an_tag {C : Ctx} (hU : UniOk C.U) {a : Spec.Anchor} (h : a.atts.Ok) (r : Bool) {u : Str} {ti : Option Str} (hu : ∀ c ∈ u, c ∉ t!"&<>\"'\n\r\t")
    (hti : ∀ v, ti = some v → ∀ c ∈ v, c ∉ t!"&<>\"'\n\r\t") (hrel : ∀ v, a.rel = some v → ∀ c ∈ v, c ∉ t!"&<>\"'\n\r\t") :
    generateTag C.U t!"a" (some a.text) (withRel (withTitle (HtmlAttrs.insert t!"href" u (BAttrs.html (attsOf r a.atts))) ti) a.rel) = anTag r a u ti := by
  have e0 : BAttrs.html (attsOf r a.atts) = BAttrs.html { cls := if r then none else a.atts.cls, id := if r then none else a.atts.id, lang := a.atts.language, style := (attsOf r a.atts).style } := rfl
  rw [e0, an_attrs]
  have h1 : (t!"a").isEmpty = false := rfl
  have h2 : (t!"a").all C.U.isAlnum = true := by simp [hU.alnum 'a' (by decide)]; decide
  unfold generateTag joinAttrs
  simp only [h1, h2, Bool.false_eq_true, if_false, Bool.not_true]
  have hf : ∀ {k : Str} {o : Option Str}, k.all isValidAttrChar = true → (o.toList.map (k, ·)).filter (fun a : Str × Str => a.1.all isValidAttrChar) = o.toList.map (k, ·) := by
    intro k o hk
    cases o <;> simp_all
  simp only [List.filter_append]
  rw [hf (by decide), hf (by decide), hf (by decide), hf (by decide), hf (by decide), hf (by decide), hf (by decide)]
  simp only [List.flatMap_append]
  have up : ∀ {c : Char}, c ∈ styleChars → c ∈ styleChars ++ t!";" := fun h => List.mem_append_left _ h
  have q : ∀ {k : Str} {o : Option Str}, (∀ v, o = some v → ∀ c ∈ v, c ∈ styleChars ++ t!";") → (o.toList.map (k, ·)).flatMap attrText = Spec.attr k o := by
    intro k o ho
    cases o with
    | none => rfl
    | some v => simp only [Option.toList, List.map_cons, List.map_nil, List.flatMap_cons, List.flatMap_nil, List.append_nil]; exact attrText_plain (ho v rfl)
  rw [q (k := t!"class"), q (k := t!"id"), q (k := t!"lang"), q (k := t!"style"),
    attrs_given (k := t!"href"), attrs_given (k := t!"rel") hrel, attrs_given (k := t!"title") hti]
  · simp [anTag, anHead, anMid, Spec.attr]
  · rintro v ⟨⟩; exact hu
  · intro v hv
    have := styleText_mem h r
    simp only [attsOf] at hv
    by_cases hs : (if r = true then [] else a.atts.declarations) ++ a.atts.layout = []
    · rw [if_pos hs] at hv; cases hv
    · rw [if_neg hs, Option.some.injEq] at hv; subst hv; exact this
  · intro v hv c hc; exact up (cls_mem h (.inr (.inr hv)) c hc)
  · intro v hv c hc
    cases r
    · exact up (cls_mem h (.inr (.inl hv)) c hc)
    · cases hv
  · intro v hv c hc
    cases r
    · exact up (cls_mem h (.inl hv) c hc)
    · cases hv

/-- The state after the address and the title of a link have been set aside. -/
def anTitled (uid : Str) (r : Bool) (σ : PState) (a : Spec.Anchor) : PState :=
  match a.title with
  | none => σ.cached (Spec.escape true a.href)
  | some t => (σ.cached (Spec.escape true a.href)).shelved uid (Spec.titleValue r t)

/-- What is set aside for a link. -/
def anVal (uid : Str) (r : Bool) (σ : PState) (a : Spec.Anchor) : Str :=
  anTag r a (urlTok uid (σ.refIndex + 1)) (a.title.map (fun _ => shelfKey uid (σ.refIndex + 2)))

def anShelved (uid : Str) (r : Bool) (σ : PState) (a : Spec.Anchor) : PState := (anTitled uid r σ a).shelved uid (anVal uid r σ a)

theorem anTitled_index (uid : Str) (r : Bool) (σ : PState) (a : Spec.Anchor) : σ.refIndex < (anTitled uid r σ a).refIndex ∧
    (anTitled uid r σ a).refIndex ≤ σ.refIndex + 2 := by
  unfold anTitled
  cases a.title <;> simp only [PState.cached, PState.shelved] <;> omega

theorem anShelved_index (uid : Str) (r : Bool) (σ : PState) (a : Spec.Anchor) : (anShelved uid r σ a).refIndex = (anTitled uid r σ a).refIndex + 1 := rfl

theorem anShelved_grow (uid : Str) (r : Bool) (σ : PState) (a : Spec.Anchor) : Grow uid σ (anShelved uid r σ a) ∧ (anShelved uid r σ a).aux = σ.aux := by
  have h1 : Grow uid σ (anTitled uid r σ a) ∧ (anTitled uid r σ a).aux = σ.aux := by
    unfold anTitled
    cases a.title with
    | none => exact ⟨Grow.cached uid _ σ, rfl⟩
    | some l => exact ⟨(Grow.cached uid _ σ).trans (Grow.shelved uid _ _), rfl⟩
  exact ⟨h1.1.trans (Grow.shelved uid _ _), h1.2⟩

theorem encChar_ne {c : Char} : encChar false false c ≠ [] := by
  simp only [encChar]
  repeat' split
  all_goals simp

theorem anchorSeen_ok {U : Uni} {a : Spec.Anchor} {s : Str} (h : a.Ok U.isLu s) (r : Bool) : (anchorSeen r a).Ok where
  gs := h.atts
  first := by
    obtain ⟨c, u, e, hc, -⟩ := (anchor_written h).2.1
    exact ⟨c, u, e, (plain_nows ((anchor_written h).1 c (by rw [e]; simp)) hc).1⟩
  chars := by
    intro c hc hm
    have hp := plainA_iff.2 ((anchor_written h).1 c hc)
    have := (by decide : ∀ c ∈ t!"\n!([{", c ∉ plainA.ascii ∧ c.toNat < 128) c hm
    exact Alpha.not_mem this.1 this.2 hp
  ti := by
    intro x hx
    simp only [anchorSeen, Option.map_eq_some_iff] at hx
    obtain ⟨b, hb, rfl⟩ := hx
    obtain ⟨h1, h2, h3⟩ := h.title b hb
    refine ⟨?_, ?_⟩
    · cases r with
      | false => exact h1
      | true =>
        intro e
        simp only [seenTitle, if_true, escape_eq] at e
        cases b with
        | nil => exact h1 rfl
        | cons c b =>
          rw [show encodeHtml (c :: b) false false = encChar false false c ++ encodeHtml b false false from rfl, List.append_eq_nil_iff,
            enc_titleChar (h2 c (by simp))] at e
          have := e.1
          split at this <;> cases this
    · intro hm
      have k := (escape_title h2 h3 r).1 ')' (by simp; exact hm)
      exact Alpha.not_mem (A := titA) (by decide) (by decide) k

theorem inner_chars {U : Uni} {a : Spec.Anchor} {s : Str} (h : a.Ok U.isLu s) (r : Bool) : ∀ c ∈ (anchorSeen r a).inner, c ≠ '\n' ∧ c ≠ '\r' ∧ c ≠ '"' := by
  intro c hc
  simp only [AnSeen.inner, anchorSeen, List.mem_append] at hc
  rcases hc with hc | hc | hc
  · have := groups_plain (i := { groups := a.groups, url := [], src := [] }) h.atts c hc
    exact (by decide +kernel : ∀ c ∈ styleChars ++ t!";(){}[]", c ≠ '\n' ∧ c ≠ '\r' ∧ c ≠ '"') c this
  · have hp := plainA_iff.2 ((anchor_written h).1 c hc)
    refine ⟨?_, ?_, ?_⟩ <;> (rintro rfl; exact absurd hp (Alpha.not_mem (A := plainA) (by decide) (by decide)))
  · cases ht : a.title with
    | none => rw [ht] at hc; cases hc
    | some b =>
      rw [ht] at hc
      simp only [Option.map_some, Spec.inParens, List.mem_cons, List.mem_append, List.not_mem_nil, or_false] at hc
      rcases hc with rfl | hc | rfl
      · decide
      · obtain ⟨h1, h2, h3⟩ := h.title b ht
        by_cases hs : c = ' '
        · subst hs; decide
        · have k := (escape_title h2 h3 r).1 c (by simp; exact ⟨hc, hs⟩)
          refine ⟨?_, ?_, ?_⟩ <;> (rintro rfl; exact absurd k (Alpha.not_mem (A := titA) (by decide) (by decide)))
      · decide

theorem findStr_skip {n w r : Str} (hn : n ≠ []) : ∀ {s : Str}, (∀ u v, s = u ++ v → v ≠ [] → ¬ n <+: v ++ (w ++ r)) → n <+: w →
    findStr n (s ++ (w ++ r)) = some (s, w ++ r)
  | [], _, h => by
    have h' := h.trans (List.prefix_append w r)
    cases hw : w ++ r with
    | nil => rw [hw] at h'; exact absurd (List.prefix_nil.1 h') hn
    | cons c t =>
      rw [hw] at h'
      simp [findStr, List.isPrefixOf_iff_prefix.2 h']
  | c :: s, hs, h => by
    have ih := findStr_skip hn (s := s) (fun u v e hv => hs (c :: u) v (by rw [e]; rfl) hv) h
    have := hs [] (c :: s) rfl (by simp)
    rw [List.cons_append, findStr, if_neg (by rw [List.isPrefixOf_iff_prefix]; exact this), ih]
    rfl

theorem findStr_none {n : Str} : ∀ {s : Str}, ¬ n <:+: s → findStr n s = none
  | [], h => by
    rw [findStr, if_neg]
    intro e
    rw [List.isEmpty_iff.1 e] at h
    exact h (List.nil_infix)
  | c :: s, h => by
    rw [findStr, if_neg (by rw [List.isPrefixOf_iff_prefix]; exact fun hp => h hp.isInfix), findStr_none (fun hi => h (hi.trans (List.suffix_cons c s).isInfix))]
    rfl

/-- An address without its scheme. -/
theorem readable_of {url t : Str} (h : Spec.WithoutScheme url t) (ht : ':' ∉ t) : makeUrlReadable url = t := by
  obtain ⟨s, hs, h⟩ := h
  have key : ∀ {n w r : Str}, n.head? = some ':' → ∀ u v, s = u ++ v → v ≠ [] → ¬ n <+: v ++ (w ++ r) := by
    intro n w r hn u v e hv hp
    obtain ⟨c, v, rfl⟩ := List.exists_cons_of_ne_nil hv
    cases n with
    | nil => cases hn
    | cons d n =>
      simp only [List.head?_cons, Option.some.injEq] at hn
      simp only [List.cons_append, List.cons_prefix_cons] at hp
      exact hs (by rw [e, ← hn, hp.1]; simp)
  unfold makeUrlReadable
  rcases h with rfl | ⟨rfl, hp⟩
  · have := findStr_skip (n := t!"://") (w := t!"://") (r := t) (s := s) (by simp) (key rfl) (List.prefix_refl _)
    rw [show s ++ ':' :: '/' :: '/' :: t = s ++ (t!"://" ++ t) from rfl, this]
    rfl
  · have h1 : findStr t!"://" (s ++ ':' :: t) = none := by
      apply findStr_none
      rintro ⟨a, b, e⟩
      have e' : a ++ ':' :: ('/' :: '/' :: b) = s ++ ':' :: t := by rw [← e]; simp
      rcases List.append_eq_append_iff.1 e' with ⟨x, h1, h2⟩ | ⟨x, h1, h2⟩
      · cases x with
        | nil => simp at h2; exact hp ⟨b, by rw [← h2]; rfl⟩
        | cons y x =>
          simp only [List.cons_append, List.cons.injEq] at h2
          exact hs (by rw [h1, ← h2.1]; simp)
      · cases x with
        | nil => simp at h2; exact hp ⟨b, by rw [h2]; rfl⟩
        | cons y x =>
          simp only [List.cons_append, List.cons.injEq] at h2
          exact ht (by rw [h2.2]; simp)
    rw [h1]
    have := findStr_skip (n := t!":") (w := t!":") (r := t) (s := s) (by simp) (key rfl) (List.prefix_refl _)
    rw [show s ++ ':' :: t = s ++ (t!":" ++ t) from rfl, this]
    rfl

/-- The address of a link by address has one of the schemes. -/
theorem anchor_scheme {C : Ctx} {a : Spec.Anchor} (h : a.Resolved (Spec.Resolves C.E.urlParse C.E.urlJoin C.cfg.restricted) (Spec.Absolute C.E.urlParse) C.cfg.rel)
    (hb : a.byAddress = true) : C.cfg.schemes.contains (UrlBits.parse C.E a.url).scheme = true := by
  have hs : C.cfg.schemes = Spec.allowedSchemes C.cfg.restricted := by
    unfold Cfg.schemes Spec.allowedSchemes; cases C.cfg.restricted <;> rfl
  rcases h.1 with ⟨s, h1, h2⟩ | ⟨h1, -⟩
  · rw [hs]
    simp only [UrlBits.parse, h1, UrlBits.scheme]
    simpa using h2
  · have := h.2.2 hb
    rw [Spec.Absolute, h1] at this
    cases this

theorem runs_anchor {C : Ctx} {base : Str} (D : DocCtx C base) {a : Spec.Anchor} {s p : Str} (h : a.Ok C.U.isLu s)
    (hl : LinkSlot C a.text a.url a.href a.rel s) (hp : ∀ c ∈ p, c ∈ t!"!?:;.,")
    (hby : a.byAddress = true → C.cfg.schemes.contains (UrlBits.parse C.E a.url).scheme = true)
    {m : Mat} (hm : m.caps = [(3, a.url ++ p), (2, (anchorSeen C.cfg.restricted a).inner)]) (n : Nat) (σ : PState) :
    Runs C (fLink C (spanN C (n + 1)) m) (shelfKey C.cfg.uid ((anTitled C.cfg.uid C.cfg.restricted σ a).refIndex + 1) ++ p) σ
      (anShelved C.cfg.uid C.cfg.restricted σ a) := by
  have g1 : m.grp 1 = [] := by simp [Mat.grp, Mat.get?, hm, alLookup]
  have g2 : m.grp 2 = (anchorSeen C.cfg.restricted a).inner := by simp [Mat.grp, Mat.get?, hm, alLookup]
  have g3 : m.grp 3 = a.url ++ p := by simp [Mat.grp, Mat.get?, hm, alLookup]
  have ht := hl.text
  have hu := hl.address
  have hok := anchorSeen_ok h C.cfg.restricted
  have hne : (anchorSeen C.cfg.restricted a).inner.isEmpty = false := by
    obtain ⟨c, u, e, -⟩ := hok.first
    rw [List.isEmpty_eq_false_iff, AnSeen.inner, e]
    simp
  have hbr : replaceStr t!"\n" C.cfg.brTag (anchorSeen C.cfg.restricted a).inner = (anchorSeen C.cfg.restricted a).inner :=
    replaceStr_none (containsStr_false_of_mem (c := '\n') (by simp) (fun hm => (inner_chars h _ _ hm).1 rfl))
  have htrim : trim a.text = a.text := by
    obtain ⟨c, u, e, hc⟩ := ht.first
    unfold trim trimP
    rw [show trimStartP isWs a.text = a.text by rw [e]; simp [trimStartP, hc]]
    exact trimEndP_of_last ht.last
  have htext : ∀ rs, linkText a.written a.url (C.cfg.schemes.contains (UrlBits.parse C.E a.url).scheme) rs = a.text := by
    intro rs
    unfold linkText Spec.Anchor.written
    by_cases hb : a.byAddress = true
    · rw [if_pos hb, if_pos rfl, if_pos (hby hb)]
      exact readable_of (h.shown hb) (linesA_nocolon ht.over)
    · rw [if_neg hb, if_neg ht.dollar]
  unfold fLink
  simp only [g1, g2, g3, hbr, hne, Bool.false_eq_true, if_false, linkParts_seen hok,
    trimUrl_eq hp hu.last (fun h => hu.chars _ h (by decide)) []]
  refine Runs.bind (a := (a.url, p, [], [])) (Runs.pure _ _) ?_
  refine Runs.bind (a := a.url) (runs_unrestrict (fun h => hu.chars _ h (by decide)) σ) ?_
  have h1 := hl.leads.1
  simp only [h1, Bool.not_true, Bool.false_eq_true, if_false]
  refine Runs.bind (runs_getSt σ) ?_
  have e1 : (anchorSeen C.cfg.restricted a).text = a.written := rfl
  have e2 : (anchorSeen C.cfg.restricted a).gs.flatMap Spec.Group.source = a.atts.source := rfl
  have e3 : (anchorSeen C.cfg.restricted a).ti = a.title.map (seenTitle C.cfg.restricted) := rfl
  simp only [e1, e2, e3, htext, htrim]
  have himg : Runs C (image C a.text) a.text σ σ := Runs.none (ht.quiet.early IMAGE_RE (by simp [earlyPatterns])) σ
  have hhref : UrlString.toHtml C.E (.normalized (UrlBits.parse C.E a.url).toStr) = Spec.escape true a.href := by
    rw [← hl.plain]
    simp only [UrlString.toHtml, UrlString.toStr, hl.leads.2]
  split
  case' isTrue => refine Runs.bind (a := a.text) (σ' := σ) (Runs.pure _ _) ?_
  case' isFalse => refine Runs.bind (a := a.text) (σ' := σ) himg ?_
  all_goals
    refine Runs.bind (a := a.text) (σ' := σ) (runs_spanN_none n (fun r hr => (ht.quiet.late r (by simp [latePatterns, hr])).1) σ) ?_
    have hg := glyphs_none (C := C) (n := []) ht.quiet.glyph ht.quiet.lt ht.quiet.gt ht.quiet.last (by simp)
    rw [List.append_nil] at hg
    rw [hg]
    refine Runs.bind (runs_shelveUrl _ σ) ?_
    rw [hhref, parseAttrs_atts D.uni h.atts]
    refine Runs.bind (Runs.pure _ _) ?_
    refine Runs.bind (a := withTitle (HtmlAttrs.insert t!"href" (urlTok C.cfg.uid (σ.refIndex + 1)) (BAttrs.html (attsOf C.cfg.restricted a.atts)))
      (a.title.map (fun _ => shelfKey C.cfg.uid (σ.refIndex + 2)))) (σ' := anTitled C.cfg.uid C.cfg.restricted σ a) ?_ ?_
    · cases hti : a.title with
      | none =>
        have he : encodeHtml [] false false = [] := rfl
        simp only [Option.map_none, Option.getD_none, he, List.isEmpty_nil, if_true, anTitled, hti, withTitle]
        exact Runs.pure _ _
      | some t =>
        have e4 : encodeHtml (seenTitle C.cfg.restricted t) false false = Spec.titleValue C.cfg.restricted t := by
          rw [Spec.titleValue, escape_eq]; rfl
        have e5 : (Spec.titleValue C.cfg.restricted t).isEmpty = false := by
          have := (hok.ti (seenTitle C.cfg.restricted t) (by simp [anchorSeen, hti])).1
          rw [List.isEmpty_eq_false_iff, ← e4]
          intro e
          obtain ⟨c, u, ec⟩ := List.exists_cons_of_ne_nil this
          rw [ec, show encodeHtml (c :: u) false false = encChar false false c ++ encodeHtml u false false from rfl, List.append_eq_nil_iff] at e
          exact encChar_ne e.1
        simp only [Option.map_some, Option.getD_some, e4, e5, Bool.false_eq_true, if_false, anTitled, hti, withTitle]
        exact (Runs.shelve _ _ _).bind (Runs.pure _ _)
    · have hkey : ∀ v, a.title.map (fun _ => shelfKey C.cfg.uid (σ.refIndex + 2)) = some v → ∀ c ∈ v, c ∉ t!"&<>\"'\n\r\t" := by
        intro v hv c hc hm
        simp only [Option.map_eq_some_iff] at hv
        obtain ⟨t, -, rfl⟩ := hv
        rw [D.uid] at hc
        rcases key_chars D.plain hc with hk | rfl
        · exact (by decide : ∀ c ∈ t!"&<>\"'\n\r\t", c ∉ asciiAlnum) c hm hk
        · exact absurd hm (by decide)
      have htag := an_tag (C := C) D.uni h.atts C.cfg.restricted (u := urlTok C.cfg.uid (σ.refIndex + 1)) (by rw [D.uid]; exact urlTok_chars D.plain _) hkey hl.relOk
      have hr := hl.relation
      cases hc : C.cfg.rel <;> rw [hc] at hr <;> simp only [hr, withRel] at htag <;> simp only
      all_goals
        rw [htag]
        refine Runs.bind (Runs.shelve _ _ _) ?_
        simp only [List.nil_append, List.append_nil]
        exact Runs.pure _ _

end Rustextile
