import Verif.ImageText

/-!
# The tag of an image
-/

namespace Rustextile

open Prog

/-- The tag of an image up to its address, and the rest of it. -/
def imgHead (r k : Bool) (i : Spec.Image) : Str :=
  t!"<img" ++ (Spec.attr t!"align" (if k then none else i.align.map Spec.ImAlign.word) ++
  (Spec.attr t!"alt" (some ((i.title.map (Spec.titleValue r)).getD [])) ++
  (Spec.attr t!"class" (i.classes r k) ++
  (Spec.attr t!"id" (if r then none else i.atts.id) ++
  (Spec.attr t!"lang" i.atts.language ++ t!" src=")))))

def imgTail (r : Bool) (i : Spec.Image) : Str :=
  '"' :: (Spec.attr t!"style" (attsOf r i.atts).style ++ (Spec.attr t!"title" (i.title.map (Spec.titleValue r)) ++ t!" />"))

def imgTag (r k : Bool) (i : Spec.Image) (s : Str) : Str := imgHead r k i ++ '"' :: (s ++ imgTail r i)

theorem image_style (r : Bool) (i : Spec.Image) : (attsOf r i.atts).style =
    if r ∨ i.atts.declarations = [] then none else some (Spec.join t!"; " i.atts.declarations ++ t!";") := by
  have hl : i.atts.layout = [] := rfl
  cases r <;> by_cases h : i.atts.declarations = [] <;> simp [attsOf, hl, h]

theorem element_eq (r k : Bool) (i : Spec.Image) : i.element r k = imgTag r k i (Spec.escape true i.src) := by
  unfold Spec.Image.element imgTag imgHead imgTail
  rw [image_style]
  cases ht : i.title <;> simp [Spec.attr]

/-- Values of attributes that are written like this. -/
def Quoted (v : Str) : Prop := ∀ c ∈ v, c ∉ t!"\"\n\r\t"

theorem enc_attr {v : Str} (h : Quoted v) : encodeHtml v false true = Spec.escape false v ∧ '"' ∉ Spec.escape false v := by
  rw [escape_eq]
  induction v with
  | nil => simp [encodeHtml]
  | cons c v ih =>
    obtain ⟨i1, i2⟩ := ih (fun x hx => h x (by simp [hx]))
    have hc := h c (by simp)
    simp at hc
    have e1 : ∀ s, encodeHtml (c :: v) false s = encChar false s c ++ encodeHtml v false s := fun _ => rfl
    rw [e1, e1, i1]
    refine ⟨by simp [encChar, hc], ?_⟩
    rw [List.mem_append, not_or]
    refine ⟨?_, i2⟩
    intro hm
    simp only [encChar] at hm
    repeat' split at hm
    all_goals simp at hm
    all_goals exact hc.1 hm.symm

theorem attrText_quoted {k v : Str} (h : Quoted v) : attrText (k, v) = Spec.attr k (some (Spec.escape false v)) := by
  obtain ⟨h1, h2⟩ := enc_attr h
  simp only [attrText, quoteattr, h1, Spec.attr]
  simp [h2]

theorem attrs_quoted {k : Str} {o : Option Str} (h : ∀ v, o = some v → Quoted v) :
    (o.toList.map (k, ·)).flatMap attrText = Spec.attr k (o.map (Spec.escape false)) := by
  cases o with
  | none => rfl
  | some v => simp only [Option.toList, List.map_cons, List.map_nil, List.flatMap_cons, List.flatMap_nil, List.append_nil]; exact attrText_quoted (h v rfl)

theorem style_quoted {v : Str} (h : ∀ c ∈ v, c ∈ styleChars ++ t!";") : Quoted v ∧ Spec.escape false v = v := by
  constructor
  · exact fun c hc => (by decide +kernel : ∀ c ∈ styleChars ++ t!";", c ∉ t!"\"\n\r\t") c (h c hc)
  · rw [escape_eq]
    exact enc_quotes (fun c hc => (by decide +kernel : ∀ c ∈ styleChars ++ t!";", c ∉ t!"&<>") c (h c hc))

def withAlign (h : HtmlAttrs) : Option Str → HtmlAttrs
  | some w => HtmlAttrs.insert t!"align" w h
  | none => h

def withTitle (h : HtmlAttrs) : Option Str → HtmlAttrs
  | some t => HtmlAttrs.insert t!"title" t h
  | none => h

/-- All attributes of an image in order. -/
theorem img_attrs (al c i l s ti : Option Str) (u : Str) :
    withTitle (HtmlAttrs.insert t!"src" u (HtmlAttrs.insert t!"alt" (ti.getD []) (withAlign (BAttrs.html { cls := c, id := i, lang := l, style := s }) al))) ti =
    (al.toList.map (t!"align", ·)) ++ ((some (ti.getD [])).toList.map (t!"alt", ·) ++ ((c.toList.map (t!"class", ·)) ++ ((i.toList.map (t!"id", ·)) ++ ((l.toList.map (t!"lang", ·)) ++
      ((some u).toList.map (t!"src", ·) ++ ((s.toList.map (t!"style", ·)) ++ (ti.toList.map (t!"title", ·)))))))) := by
  cases al <;> cases c <;> cases i <;> cases l <;> cases s <;> cases ti <;> rfl

theorem css_align (U : Uni) (a : Spec.ImAlign) : CSS_CLASS_NAME_RE.isMatch U (trim (t!"align-" ++ a.word)) = true := by
  cases a <;> kernel_rfl

theorem insertCss_four (U : Uni) (a : Spec.ImAlign) (c i l s : Option Str) :
    HtmlAttrs.insertCssClass U (t!"align-" ++ a.word) (BAttrs.html { cls := c, id := i, lang := l, style := s }) =
    BAttrs.html { cls := some (match (generalizing := false) c with | none => t!"align-" ++ a.word | some c => c ++ (' ' :: (t!"align-" ++ a.word))), id := i, lang := l, style := s } := by
  have ht : trim (t!"align-" ++ a.word) = t!"align-" ++ a.word := by cases a <;> rfl
  unfold HtmlAttrs.insertCssClass
  have := css_align U a
  rw [ht] at this ⊢
  simp only [this, if_true]
  cases c <;> cases i <;> cases l <;> cases s <;> simp [BAttrs.html, alLookup, btInsert] <;> rfl

/-- The attributes of an image but `alt`, `src` and `title`. -/
def ownAttrs (r k : Bool) (i : Spec.Image) : HtmlAttrs :=
  withAlign (BAttrs.html { cls := i.classes r k, id := if r then none else i.atts.id, lang := i.atts.language, style := (attsOf r i.atts).style })
    (if k then none else i.align.map Spec.ImAlign.word)

theorem align_read (r : Bool) (a : Spec.ImAlign) : imageAlign (if r then Spec.escape false a.mark else a.mark) = .ok a.word := by
  cases r <;> cases a <;> rfl

theorem runs_imageAttrs {C : Ctx} (hU : UniOk C.U) {i : Spec.Image} (h : i.atts.Ok) {m : Mat} (h1 : m.get? 1 = (partsOf C.cfg.restricted i).al)
    (h2 : m.grp 2 = i.groups.flatMap Spec.Group.source) (σ : PState) :
    Runs C (imageAttrs C m) (ownAttrs C.cfg.restricted (useAlignClass C.cfg) i) σ σ := by
  unfold imageAttrs
  have e : m.grp 2 = i.atts.source := by rw [h2]; rfl
  rw [e, parseAttrs_atts hU h, h1]
  refine Runs.bind (Runs.pure _ _) ?_
  have e0 : BAttrs.html (attsOf C.cfg.restricted i.atts) = BAttrs.html { cls := if C.cfg.restricted then none else i.atts.cls, id := if C.cfg.restricted then none else i.atts.id, lang := i.atts.language, style := (attsOf C.cfg.restricted i.atts).style } := rfl
  cases ha : i.align with
  | none =>
    have : (partsOf C.cfg.restricted i).al = none := by simp [partsOf, ha]
    rw [this]
    have e1 : ownAttrs C.cfg.restricted (useAlignClass C.cfg) i = BAttrs.html (attsOf C.cfg.restricted i.atts) := by
      rw [e0]
      cases hk : useAlignClass C.cfg <;> simp [ownAttrs, withAlign, ha, Spec.Image.classes]
    rw [e1]
    exact Runs.pure _ _
  | some a =>
    have : (partsOf C.cfg.restricted i).al = some (if C.cfg.restricted then Spec.escape false a.mark else a.mark) := by simp [partsOf, ha]
    rw [this]
    simp only [align_read]
    refine Runs.bind (a := a.word) (σ' := σ) (Runs.pure _ _) ?_
    cases hk : useAlignClass C.cfg with
    | true =>
      simp only [if_true]
      rw [e0, insertCss_four]
      have e1 : ownAttrs C.cfg.restricted true i = BAttrs.html { cls := some (match (generalizing := false) (if C.cfg.restricted then none else i.atts.cls) with | none => t!"align-" ++ a.word | some c => c ++ (' ' :: (t!"align-" ++ a.word))), id := if C.cfg.restricted then none else i.atts.id, lang := i.atts.language, style := (attsOf C.cfg.restricted i.atts).style } := by
        simp only [ownAttrs, withAlign, ha, Spec.Image.classes, if_true]
        cases (if C.cfg.restricted = true then none else i.atts.cls) <;> rfl
      rw [e1]
      exact Runs.pure _ _
    | false =>
      simp only [Bool.false_eq_true, if_false]
      have e1 : ownAttrs C.cfg.restricted false i = HtmlAttrs.insert t!"align" a.word (BAttrs.html (attsOf C.cfg.restricted i.atts)) := by
        rw [e0]
        simp [ownAttrs, withAlign, ha, Spec.Image.classes]
      rw [e1]
      exact Runs.pure _ _

theorem title_quoted {i : Spec.Image} {a : Str} (h : i.Ok a) (r : Bool) {t : Str} (ht : (partsOf r i).ti = some t) :
    Quoted t ∧ i.title.map (Spec.titleValue r) = some (Spec.escape false t) := by
  simp only [partsOf, Option.map_eq_some_iff] at ht
  obtain ⟨x, hx, rfl⟩ := ht
  obtain ⟨-, h2, h3⟩ := h.title x hx
  refine ⟨?_, by simp [hx, Spec.titleValue]⟩
  have := (escape_title h2 h3 r).1
  intro c hc hm
  by_cases hs : c = ' '
  · subst hs; exact absurd hm (by decide)
  · have := this c (by simp [seenTitle, hc, hs])
    rcases this with h | h
    · exact (by decide : ∀ c ∈ titA.ascii, c ∉ t!"\"\n\r\t") c h hm
    · have := (by decide : ∀ c ∈ t!"\"\n\r\t", c.toNat < 128) c hm
      have := h.2; grind

theorem img_tag {C : Ctx} (hU : UniOk C.U) {i : Spec.Image} {a : Str} (h : i.Ok a) (r k : Bool) {u : Str} (hu : ∀ c ∈ u, c ∉ t!"&<>\"'\n\r\t") :
    generateTag C.U t!"img" none (withTitle (HtmlAttrs.insert t!"src" u (HtmlAttrs.insert t!"alt" ((partsOf r i).ti.getD []) (ownAttrs r k i))) (partsOf r i).ti) =
      imgTag r k i u := by
  have e := img_attrs (if k then none else i.align.map Spec.ImAlign.word) (i.classes r k) (if r then none else i.atts.id) i.atts.language (attsOf r i.atts).style (partsOf r i).ti u
  unfold ownAttrs
  rw [e]
  have h1 : (t!"img").isEmpty = false := rfl
  have h2 : (t!"img").all C.U.isAlnum = true := tag_alnum hU (by decide)
  unfold generateTag joinAttrs
  simp only [h1, h2, Bool.false_eq_true, if_false, Bool.not_true]
  have hf : ∀ {k : Str} {o : Option Str}, k.all isValidAttrChar = true → (o.toList.map (k, ·)).filter (fun a : Str × Str => a.1.all isValidAttrChar) = o.toList.map (k, ·) := by
    intro k o hk
    cases o <;> simp_all
  simp only [List.filter_append]
  rw [hf (by decide), hf (by decide), hf (by decide), hf (by decide), hf (by decide), hf (by decide), hf (by decide), hf (by decide)]
  simp only [List.flatMap_append]
  have up : ∀ {c : Char}, c ∈ styleChars → c ∈ styleChars ++ t!";" := fun h => List.mem_append_left _ h
  have q : ∀ {k : Str} {o : Option Str}, (∀ v, o = some v → ∀ c ∈ v, c ∈ styleChars ++ t!";") → (o.toList.map (k, ·)).flatMap attrText = Spec.attr k o := by
    intro k o ho
    cases o with
    | none => rfl
    | some v => simp only [Option.toList, List.map_cons, List.map_nil, List.flatMap_cons, List.flatMap_nil, List.append_nil]; exact attrText_plain (ho v rfl)
  have word : ∀ a : Spec.ImAlign, ∀ c ∈ t!"align-" ++ a.word, c ∈ styleChars ++ t!";" := by intro a; cases a <;> decide +kernel
  rw [q (k := t!"align"), q (k := t!"class"), q (k := t!"id"), q (k := t!"lang"), q (k := t!"style"),
    attrs_quoted (k := t!"alt"), attrs_quoted (k := t!"src"), attrs_quoted (k := t!"title")]
  · have e1 : (partsOf r i).ti.map (Spec.escape false) = i.title.map (Spec.titleValue r) := by
      cases ht : (partsOf r i).ti with
      | none => simp [partsOf] at ht; simp [ht]
      | some t => rw [(title_quoted h r ht).2]; rfl
    have e2 : Spec.escape false ((partsOf r i).ti.getD []) = (i.title.map (Spec.titleValue r)).getD [] := by
      rw [← e1]; cases (partsOf r i).ti <;> rfl
    have e3 : Spec.escape false u = u := by
      rw [escape_eq]; exact enc_plain hu
    rw [e1]
    simp [e2, e3, imgTag, imgHead, imgTail, Spec.attr]
  · intro v hv; exact (title_quoted h r hv).1
  · rintro v ⟨⟩ c hc hm
    exact hu c hc ((by decide : ∀ c ∈ t!"\"\n\r\t", c ∈ t!"&<>\"'\n\r\t") c hm)
  · rintro v ⟨⟩
    cases ht : (partsOf r i).ti with
    | none => exact fun _ h => nomatch h
    | some t => exact (title_quoted h r ht).1
  · intro v hv
    have := styleText_mem h.atts r
    simp only [attsOf] at hv
    by_cases hs : (if r = true then [] else i.atts.declarations) ++ i.atts.layout = []
    · rw [if_pos hs] at hv; cases hv
    · rw [if_neg hs, Option.some.injEq] at hv; subst hv; exact this
  · intro v hv c hc; exact up (cls_mem h.atts (.inr (.inr hv)) c hc)
  · intro v hv c hc
    cases r
    · exact up (cls_mem h.atts (.inr (.inl hv)) c hc)
    · cases hv
  · intro v hv c hc
    have hown : ∀ v, (if r then none else i.atts.cls) = some v → ∀ c ∈ v, c ∈ styleChars ++ t!";" := by
      intro v hv c hc
      cases r
      · exact up (cls_mem h.atts (.inl hv) c hc)
      · cases hv
    cases k with
    | false => exact hown v hv c hc
    | true =>
      cases ha : i.align with
      | none => exact hown v (by simpa [Spec.Image.classes, ha] using hv) c hc
      | some a =>
        simp only [Spec.Image.classes, ha, if_true, Option.some.injEq] at hv
        cases ho : (if r then none else i.atts.cls) with
        | none => rw [ho] at hv; subst hv; exact word a c hc
        | some o =>
          rw [ho] at hv; subst hv
          rcases List.mem_append.1 hc with hc | hc
          · exact hown o ho c hc
          · rcases List.mem_cons.1 hc with rfl | hc
            · decide +kernel
            · exact word a c hc
  · intro v hv c hc
    cases k with
    | true => cases hv
    | false =>
      cases ha : i.align with
      | none => simp [ha] at hv
      | some a =>
        simp [ha] at hv; subst hv
        exact word a c (List.mem_append_right _ hc)

end Rustextile
