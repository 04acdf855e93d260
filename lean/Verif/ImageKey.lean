import Verif.ImageRun

/-!
# Images are set aside
-/

namespace Rustextile

open Prog

/-- The state after the addresses of an image have been set aside. -/
def imCached (σ : PState) (i : Spec.Image) : PState :=
  match i.link with
  | none => σ.cached (Spec.escape true i.src)
  | some l => (σ.cached (Spec.escape true i.src)).cached (Spec.escape true l.2)

/-- What is set aside for an image. -/
def imVal (uid : Str) (r k : Bool) (σ : PState) (i : Spec.Image) : Str :=
  match i.link with
  | none => imgTag r k i (urlTok uid (σ.refIndex + 1))
  | some _ => t!"<a href=" ++ '"' :: (urlTok uid (σ.refIndex + 2) ++ (t!"\">" ++ imgTag r k i (urlTok uid (σ.refIndex + 1)) ++ t!"</a>"))

def imShelved (uid : Str) (r k : Bool) (σ : PState) (i : Spec.Image) : PState := (imCached σ i).shelved uid (imVal uid r k σ i)

theorem imCached_index (σ : PState) (i : Spec.Image) : σ.refIndex < (imCached σ i).refIndex ∧ (imCached σ i).refIndex ≤ σ.refIndex + 2 := by
  unfold imCached
  cases i.link <;> simp only [PState.cached] <;> omega

theorem imShelved_index (uid : Str) (r k : Bool) (σ : PState) (i : Spec.Image) : (imShelved uid r k σ i).refIndex = (imCached σ i).refIndex + 1 := rfl

theorem imShelved_grow (uid : Str) (r k : Bool) (σ : PState) (i : Spec.Image) : Grow uid σ (imShelved uid r k σ i) ∧ (imShelved uid r k σ i).aux = σ.aux := by
  have h1 : Grow uid σ (imCached σ i) ∧ (imCached σ i).aux = σ.aux := by
    unfold imCached
    cases i.link with
    | none => exact ⟨Grow.cached uid _ σ, rfl⟩
    | some l => exact ⟨(Grow.cached uid _ σ).trans (Grow.cached uid _ _), rfl⟩
  exact ⟨h1.1.trans (Grow.shelved uid _ _), h1.2⟩

theorem reads_to {C : Ctx} {url href : Str} (h : Spec.Reads C.E.urlParse C.E.urlJoin url href) : (UrlBits.parse C.E url).toStr = href := by
  rcases h with ⟨sch, h1⟩ | ⟨h1, h2, h3, h4, rfl⟩
  · have : UrlBits.parse C.E url = .abs sch href := by simp [UrlBits.parse, h1]
    simp [this, UrlBits.toStr]
  · obtain ⟨j, hj⟩ := Option.isSome_iff_exists.1 h2
    have : UrlBits.parse C.E href = .rel j href := by simp [UrlBits.parse, h1, hj]
    rw [this]
    have e1 : splitOnce '?' href = none := splitOnce_absent h3
    have e2 : rfindChar '#' href = none := by rw [rfindChar, splitOnce_absent (by simpa using h4)]; rfl
    simp only [UrlBits.toStr, e1, e2]
    split
    · rename_i e; cases e
    · rfl

theorem runs_fImage {C : Ctx} {base : Str} (D : DocCtx C base) (hz : C.cfg.getSizes = false) {i : Spec.Image} {a : Str} (h : i.Ok a)
    (hr : i.Resolved (Spec.Resolves C.E.urlParse C.E.urlJoin C.cfg.restricted) (Spec.Reads C.E.urlParse C.E.urlJoin)) (gap w : Str) (σ : PState) :
    Runs C (fImage C ⟨gap, w, (partsOf C.cfg.restricted i).caps⟩) (shelfKey C.cfg.uid ((imCached σ i).refIndex + 1)) σ
      (imShelved C.cfg.uid C.cfg.restricted (useAlignClass C.cfg) σ i) := by
  obtain ⟨g1, g2, g3, g4, g5⟩ := image_grps (partsOf C.cfg.restricted i) gap w
  have g3' : (Mat.mk gap w (partsOf C.cfg.restricted i).caps).grp 3 = i.url := g3
  unfold fImage
  simp only [g3', g4, g5]
  have hl := resolves_to hr.1
  have hv : isValidUrl C i.url = true := hl.1
  simp only [hv, Bool.not_true, Bool.false_eq_true, if_false]
  have huamp : ∀ {u : Str}, Spec.UrlOk u → '&' ∉ u := fun hu hm => absurd (hu.chars _ hm) (by decide)
  refine (runs_imageAttrs D.uni h.atts g1 g2 σ).bind ?_
  refine Runs.bind (a := HtmlAttrs.insert t!"alt" ((partsOf C.cfg.restricted i).ti.getD []) (ownAttrs C.cfg.restricted (useAlignClass C.cfg) i)) (σ' := σ) ?_ ?_
  · unfold imageSizeAttrs
    simp only [hz, Bool.and_false, Bool.false_eq_true, if_false]
    exact Runs.pure _ _
  refine (runs_unrestrict (huamp h.url) σ).bind ?_
  refine (runs_shelveUrl _ σ).bind ?_
  have e1 : UrlString.toHtml C.E (.raw i.url) = Spec.escape true i.src := by
    obtain ⟨c, u, e, -⟩ := h.url.first
    have : i.url.isEmpty = false := by rw [e]; rfl
    simp only [UrlString.toHtml, UrlString.toStr, hl.2, this, Bool.false_eq_true, if_false]
    exact enc_spacers h.src
  rw [e1]
  generalize hA : generateTag C.U t!"img" none _ = img
  have etag : img = imgTag C.cfg.restricted (useAlignClass C.cfg) i (urlTok C.cfg.uid (σ.refIndex + 1)) := by
    rw [← hA, ← img_tag D.uni h C.cfg.restricted (useAlignClass C.cfg) (u := urlTok C.cfg.uid (σ.refIndex + 1)) (by rw [D.uid]; exact urlTok_chars D.plain _)]
    cases (partsOf C.cfg.restricted i).ti <;> rfl
  subst etag
  refine Runs.bind (a := imVal C.cfg.uid C.cfg.restricted (useAlignClass C.cfg) σ i) (σ' := imCached σ i) ?_ (Runs.shelve _ _ _)
  cases hli : i.link with
  | none =>
    have : (partsOf C.cfg.restricted i).li = none := by simp [partsOf, hli]
    simp only [this, imVal, imCached, hli]
    exact Runs.pure _ _
  | some l =>
    have : (partsOf C.cfg.restricted i).li = some l.1 := by simp [partsOf, hli]
    simp only [this, imVal, imCached, hli]
    obtain ⟨k1, k2, -⟩ := h.link l hli
    refine (runs_unrestrict (huamp k1) _).bind ?_
    refine (runs_shelveUrl _ _).bind ?_
    have e2 : UrlString.toHtml C.E (.raw l.1) = Spec.escape true l.2 := by
      obtain ⟨c, u, e, -⟩ := k1.first
      have : l.1.isEmpty = false := by rw [e]; rfl
      simp only [UrlString.toHtml, UrlString.toStr, reads_to (hr.2 l hli), this, Bool.false_eq_true, if_false]
      exact enc_spacers k2
    rw [e2]
    have e3 : (urlTok C.cfg.uid ((σ.cached (Spec.escape true i.src)).refIndex + 1)).isEmpty = false := by
      simp [urlTok]
    simp only [e3, Bool.false_eq_true, if_false]
    have := tag_a (C := C) D.uni (imgTag C.cfg.restricted (useAlignClass C.cfg) i (urlTok C.cfg.uid (σ.refIndex + 1))) (urlTok C.cfg.uid (σ.refIndex + 2)) none
      (by rw [D.uid]; exact urlTok_chars D.plain _) (fun _ h => nomatch h)
    simp only [relAttr, List.append_nil] at this
    rw [show (σ.cached (Spec.escape true i.src)).refIndex + 1 = σ.refIndex + 2 from rfl]
    rw [show ([(t!"href", urlTok C.cfg.uid (σ.refIndex + 2))] : List (Str × Str)) = HtmlAttrs.insert t!"href" (urlTok C.cfg.uid (σ.refIndex + 2)) ([] : HtmlAttrs) from rfl, this]
    have e4 : ∀ x : Str, t!"\"" ++ t!">" ++ x ++ t!"</a>" = t!"\">" ++ x ++ t!"</a>" := fun _ => rfl
    rw [e4]
    exact Runs.pure _ _

/-! ## What it stands for -/

theorem clean_title {base : Str} (hb : Spec.PlainBase base) {t : Str} (h : containsStr (uidOf base) t = false) (r : Bool) :
    containsStr (uidOf base) (Spec.titleValue r t) = false := by
  obtain ⟨h1, h2, -, -, -, -, h3, -⟩ := uid_chars hb
  unfold Spec.titleValue
  rw [escape_eq]
  refine containsStr_enc h1 h2 h3 ?_
  cases r with
  | false => exact h
  | true => simp only [if_true, escape_eq]; exact containsStr_enc h1 h2 h3 h

theorem clean_classes {base : Str} (hb : Spec.PlainBase base) {i : Spec.Image} (h : ∀ v, i.atts.cls = some v → containsStr (uidOf base) v = false)
    (r k : Bool) : ∀ v, i.classes r k = some v → containsStr (uidOf base) v = false := by
  have hne : uidOf base ≠ [] := by simp [uidOf]
  have hw : ∀ a : Spec.ImAlign, containsStr (uidOf base) (t!"align-" ++ a.word) = false := by
    intro a
    refine containsStr_false_of_mem (c := ':') (by simp [uidOf]) ?_
    cases a <;> decide
  have hown : ∀ v, (if r then none else i.atts.cls) = some v → containsStr (uidOf base) v = false := by
    intro v hv
    cases r
    · exact h v hv
    · cases hv
  intro v hv
  cases k with
  | false => exact hown v hv
  | true =>
    cases ha : i.align with
    | none => exact hown v (by simpa [Spec.Image.classes, ha] using hv)
    | some a =>
      simp only [Spec.Image.classes, ha, if_true, Option.some.injEq] at hv
      cases ho : (if r then none else i.atts.cls) with
      | none => rw [ho] at hv; subst hv; exact hw a
      | some o =>
        rw [ho] at hv; subst hv
        exact containsStr_sep (sep_uid hb (by decide)) hne (hown o ho) (hw a)

theorem image_infix {i : Spec.Image} : i.atts.source <:+: i.source ∧ ∀ t, i.title = some t → t <:+: i.source := by
  constructor
  · refine ⟨'!' :: (match i.align with | none => [] | some a => a.mark), i.url ++ (Spec.inParens i.title ++ ('!' :: Spec.imageLink i.link)), ?_⟩
    have : i.atts.source = i.groups.flatMap Spec.Group.source := rfl
    rw [this]
    cases h : i.align <;> simp [Spec.Image.source, h]
  · intro t ht
    refine ⟨'!' :: ((match i.align with | none => [] | some a => a.mark) ++ (i.groups.flatMap Spec.Group.source ++ (i.url ++ ['(']))), ')' :: '!' :: Spec.imageLink i.link, ?_⟩
    cases h : i.align <;> simp [Spec.Image.source, ht, Spec.inParens, h]

theorem img_sealed {base : Str} (hb : Spec.PlainBase base) {i : Spec.Image} (hc : containsStr (uidOf base) i.source = false) (r k : Bool) :
    Sealed (uidOf base) (imgHead r k i) ∧ Sealed (uidOf base) (imgTail r i) := by
  have hne : uidOf base ≠ [] := by simp [uidOf]
  have hv : ∀ v, i.atts.cls = some v ∨ i.atts.id = some v ∨ i.atts.language = some v ∨ v ∈ i.atts.declarations → containsStr (uidOf base) v = false :=
    fun v hv => clean_of_infix hc ((att_value_infix hv).trans image_infix.1)
  have ht : ∀ v, i.title.map (Spec.titleValue r) = some v → containsStr (uidOf base) v = false := by
    intro v hv
    simp only [Option.map_eq_some_iff] at hv
    obtain ⟨t, ht, rfl⟩ := hv
    exact clean_title hb (clean_of_infix hc (image_infix.2 t ht)) r
  have nc : ∀ w : Str, ':' ∉ w → containsStr (uidOf base) w = false := fun w h => containsStr_false_of_mem (c := ':') (by simp [uidOf]) h
  constructor
  · refine ⟨⟨'<', _, rfl, by decide⟩, ⟨t!"<img" ++ (Spec.attr t!"align" (if k then none else i.align.map Spec.ImAlign.word) ++
      (Spec.attr t!"alt" (some ((i.title.map (Spec.titleValue r)).getD [])) ++
      (Spec.attr t!"class" (i.classes r k) ++
      (Spec.attr t!"id" (if r then none else i.atts.id) ++
      (Spec.attr t!"lang" i.atts.language ++ t!" src"))))), '=', by simp [imgHead], by decide⟩, ?_⟩
    unfold imgHead
    have : t!"<img" ++ (Spec.attr t!"align" (if k then none else i.align.map Spec.ImAlign.word) ++
      (Spec.attr t!"alt" (some ((i.title.map (Spec.titleValue r)).getD [])) ++
      (Spec.attr t!"class" (i.classes r k) ++
      (Spec.attr t!"id" (if r then none else i.atts.id) ++
      (Spec.attr t!"lang" i.atts.language ++ t!" src="))))) = [] ++ '<' :: ([] ++ (t!"img" ++ (Spec.attr t!"align" (if k then none else i.align.map Spec.ImAlign.word) ++
      (Spec.attr t!"alt" (some ((i.title.map (Spec.titleValue r)).getD [])) ++
      (Spec.attr t!"class" (i.classes r k) ++
      (Spec.attr t!"id" (if r then none else i.atts.id) ++
      (Spec.attr t!"lang" i.atts.language ++ t!" src=")))))) ) := by simp
    -- the attributes start with a space
    have key : ∀ {w : Str}, ':' ∉ w → ∀ {x : Str}, containsStr (uidOf base) x = false → (x = [] ∨ ∃ y, x = ' ' :: y) → containsStr (uidOf base) (w ++ x) = false := by
      intro w hw x hx hs
      rcases hs with rfl | ⟨y, rfl⟩
      · rw [List.append_nil]; exact nc w hw
      · refine containsStr_sep (sep_uid hb (by decide)) hne (nc w hw) ?_
        exact clean_of_infix hx (List.suffix_cons ' ' y).isInfix
    have hattr : ∀ (n : Str) (o : Option Str) (x : Str), (∃ y, x = ' ' :: y) → ∃ y, Spec.attr n o ++ x = ' ' :: y := by
      intro n o x hx
      cases o with
      | none => exact hx
      | some v => exact ⟨_, rfl⟩
    refine key (by decide) ?_ (.inr (hattr _ _ _ (hattr _ _ _ (hattr _ _ _ (hattr _ _ _ (hattr _ _ _ ⟨_, rfl⟩))))))
    refine clean_attr hb (by decide) ?_ (clean_attr hb (by decide) ?_ (clean_attr hb (by decide) (clean_classes hb (fun v h => hv v (.inl h)) r k)
      (clean_attr hb (by decide) ?_ (clean_attr hb (by decide) (fun v h => hv v (.inr (.inr (.inl h)))) (nc _ (by decide))))))
    · intro v h
      refine nc v ?_
      cases k with
      | true => cases h
      | false =>
        simp only [Bool.false_eq_true, if_false, Option.map_eq_some_iff] at h
        obtain ⟨a, -, rfl⟩ := h
        cases a <;> decide
    · rintro v ⟨⟩
      cases hh : i.title.map (Spec.titleValue r) with
      | none => exact nc _ (by decide)
      | some v => exact ht v hh
    · intro v h
      cases r
      · exact hv v (.inr (.inl h))
      · cases h
  · refine ⟨⟨'"', _, rfl, by decide⟩, ⟨'"' :: (Spec.attr t!"style" (attsOf r i.atts).style ++ (Spec.attr t!"title" (i.title.map (Spec.titleValue r)) ++ t!" /")), '>',
      by simp [imgTail], by decide⟩, ?_⟩
    refine containsStr_sep (a := []) (sep_uid hb (by decide)) hne (nc _ (by decide)) (clean_attr hb (by decide) ?_ (clean_attr hb (by decide) ht (nc _ (by decide))))
    intro v h
    rw [image_style] at h
    split at h
    · cases h
    · cases h
      exact clean_join hb (nc [] (by decide)) (fun d hd => hv d (.inr (.inr (.inr hd))))

theorem image_rep {base : Str} (hb : Spec.PlainBase base) {i : Spec.Image} (hc : containsStr (uidOf base) i.source = false) (r k : Bool) {σ τ : PState}
    (ha : Agrees (uidOf base) (imShelved (uidOf base) r k σ i) τ) (hi : (imShelved (uidOf base) r k σ i).refIndex < 2 ^ 32) {x h : Str} (hr : Rep (uidOf base) τ x h) :
    Rep (uidOf base) τ (shelfKey (uidOf base) ((imCached σ i).refIndex + 1) ++ x) (i.html r k ++ h) := by
  obtain ⟨s1, s2⟩ := img_sealed hb hc r k
  have hi' : (imCached σ i).refIndex + 1 < 2 ^ 32 := hi
  have hlook : alLookup (shelfKey (uidOf base) ((imCached σ i).refIndex + 1)) τ.shelf = some (imVal (uidOf base) r k σ i) := by
    rw [(ha ((imCached σ i).refIndex + 1) (Nat.le_refl _)).2]
    exact shelved_lookup _ _ _
  have hrep : RepK (uidOf base) τ 0 (fun _ => True) (imVal (uidOf base) r k σ i) (i.html r k) := by
    have hcache : ∀ n o, n ≤ (imCached σ i).refIndex → alLookup n (imCached σ i).refCache = some o → alLookup n τ.refCache = some o := by
      intro n o hn ho
      rw [(ha n (by rw [imShelved_index]; omega)).1]
      exact ho
    have himg : ∀ {x h : Str}, alLookup (σ.refIndex + 1) (imCached σ i).refCache = some (Spec.escape true i.src) → RepK (uidOf base) τ 0 (fun _ => True) x h →
        RepK (uidOf base) τ 0 (fun _ => True) (imgTag r k i (urlTok (uidOf base) (σ.refIndex + 1)) ++ x) (i.element r k ++ h) := by
      intro x h h1 hx
      have hix := imCached_index σ i
      have := RepK.chunk s1 (RepK.url (n := σ.refIndex + 1) (o := Spec.escape true i.src) (by omega) (hcache _ _ (by omega) h1) (RepK.chunk s2 hx))
      rw [element_eq]
      simpa [imgTag] using this
    cases hl : i.link with
    | none =>
      have := himg (x := []) (h := []) (by simp [imCached, hl, PState.cached, alLookup_imInsert]) .nil
      simpa [imVal, hl, Spec.Image.html] using this
    | some l =>
      have e1 : alLookup (σ.refIndex + 1) (imCached σ i).refCache = some (Spec.escape true i.src) := by
        simp [imCached, hl, PState.cached, alLookup_imInsert]
      have e2 : alLookup (σ.refIndex + 2) (imCached σ i).refCache = some (Spec.escape true l.2) := by
        simp [imCached, hl, PState.cached, alLookup_imInsert]
      have e3 : (imCached σ i).refIndex = σ.refIndex + 2 := by simp [imCached, hl, PState.cached]
      have h1 := (himg e1 ((RepK.nil).text (w := t!"</a>") (by decide))).text (w := t!"\">") (by decide)
      have h2 := (RepK.url (n := σ.refIndex + 2) (o := Spec.escape true l.2) (by omega) (hcache _ _ (by omega) e2) h1).text (w := t!"<a href=") (by decide)
      simpa [imVal, hl, Spec.Image.html, Spec.attr] using h2
  exact RepK.key (a := []) (z := []) (d := 2) (e := 0) (by omega) (fun _ => trivial) hlook (by simp) (by simp) (by simpa using hrep) hr

end Rustextile
