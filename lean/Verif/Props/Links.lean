import Verif.Effects
import Verif.UniOk
import Verif.Props.Html
import Verif.Props.State
import Verif.Props.History

/-!
# Links and images: C27–C30
-/

namespace Rustextile

open Prog

/-! ## C29 -/

/-- Every event of `p` satisfies `Q`. -/
def AllEvents (C : Ctx) (Q : Event → Prop) {α : Type} (p : Prog α) : Prop := ∀ w, ∀ e ∈ trace C p w, Q e

theorem allEvents_bind {C : Ctx} {Q : Event → Prop} {α β : Type} {p : Prog α} {f : α → Prog β}
    (hp : AllEvents C Q p) (hf : ∀ a, AllEvents C Q (f a)) : AllEvents C Q (p >>= f) := by
  intro w e he
  rw [trace_bind, List.mem_append] at he
  rcases he with he | he
  · exact hp w e he
  · cases hr : run C p w with
    | error x => rw [hr] at he; simp at he
    | ok q => rw [hr] at he; exact hf q.1 q.2 e he

/-- What the settings allow. -/
def Allowed (c : Cfg) : Event → Prop
  | .stored .image _ _ => c.noimage = false
  | .probe _ => c.noimage = false ∧ c.getSizes = true
  | _ => True

theorem allowed_basic (C : Ctx) : Basic C (AllEvents C (Allowed C.cfg)) where
  ret a := by intro w e he; simp [trace] at he
  fail x := by intro w e he; simp [trace] at he
  bind := allEvents_bind
  shelve v := by intro w e he; simp [shelveP, trace] at he; subst he; trivial
  shelveLink v := by intro w e he; simp [shelveP, trace] at he; subst he; trivial
  shelveImage h v := by intro w e he; simp [shelveP, trace] at he; subst he; exact h
  cacheRef k v := by intro w e he; simp [cacheRefP, trace] at he; subst he; trivial
  getSt := by intro w e he; simp [getStP, trace] at he
  probe h h' u := by intro w e he; simp [probeP, trace] at he; subst he; exact ⟨h, h'⟩
  incLink := by intro w e he; simp [incLinkP, trace] at he; subst he; trivial
  setFootnote l i := by intro w e he; simp [setFootnoteP, trace] at he
  setAux f := by intro w e he; simp [setAuxP, trace] at he
  getPat s := by intro w e he; simp [getPatP, trace] at he
  level := by
    intro body text hb
    refine allEvents_bind (by intro w e he; simp [spanEnterP, trace] at he) (fun d => allEvents_bind ?_ (fun t =>
      allEvents_bind (by intro w e he; simp [spanLeaveP, trace] at he) (fun _ => by intro w e he; simp [Prog.pure_eq, trace] at he)))
    split
    · exact hb
    · intro w e he; simp [Prog.pure_eq, trace] at he

/-- **C29.** With images disabled, whatever the text and the other settings, no image
element is made and no image size is asked for. -/
theorem C29_no_images (C : Ctx) (h : C.cfg.noimage = true) (text : Str) (w : World) :
    ∀ e ∈ trace C (parseP C text) w, (∀ k v, e ≠ .stored .image k v) ∧ ∀ u, e ≠ .probe u := by
  intro e he
  have := (allowed_basic C).closed.parseP text w e he
  refine ⟨?_, ?_⟩
  · rintro k v rfl; simp [Allowed, h] at this
  · rintro u rfl; simp [Allowed, h] at this

/-- With images enabled the same markup does make an image element. -/
example : (trace ⟨demoEnv, demoCfg, 100⟩ (parseP ⟨demoEnv, demoCfg, 100⟩ t!"!a.png!") {}) =
    [.cached .url 0 1 t!"a.png",
     .stored .image t!"textileRef:abc:2:shelve" t!"<img alt=\"\" src=\"textileRef:abc:1:url\" />"] := by
  decide +kernel

example : parseFresh demoEnv 100 { demoCfg with noimage := true } t!"!a.png!" = .ok t!"<p>!a.png!</p>" := by
  decide +kernel

/-! ## C30 -/

/-- Without requests the image sizes make no difference. -/
theorem run_no_probe (E : Env) (sz : Str → Option (Int × Int)) (cfg : Cfg) (fuel : Nat) {α : Type} (p : Prog α) :
    ∀ w, (∀ e ∈ trace ⟨E, cfg, fuel⟩ p w, ∀ u, e ≠ .probe u) →
      run ⟨{ E with imageSize := sz }, cfg, fuel⟩ p w = run ⟨E, cfg, fuel⟩ p w := by
  induction p with
  | ret a => intro w _; rfl
  | fail e => intro w _; rfl
  | shelve kd v k ih => intro w h; exact ih _ _ (fun e he => h e (by simp [trace, he]))
  | cacheRef kd v k ih => intro w h; exact ih _ _ (fun e he => h e (by simp [trace, he]))
  | incLink k ih => intro w h; exact ih _ _ (fun e he => h e (by simp [trace, he]))
  | setFootnote a b k ih => intro w h; exact ih _ h
  | setAux g k ih => intro w h; exact ih _ h
  | spanEnter k ih => intro w h; exact ih _ _ h
  | spanLeave k ih => intro w h; exact ih _ h
  | getSt k ih => intro w h; exact ih _ _ h
  | getPat s k ih => intro w h; exact ih _ _ h
  | probe u k ih => intro w h; exact absurd rfl (h (.probe u) (by simp [trace]) u)

set_option smartUnfolding false in
theorem parseP_imageSize (E : Env) (sz : Str → Option (Int × Int)) (cfg : Cfg) (fuel : Nat) :
    parseP ⟨{ E with imageSize := sz }, cfg, fuel⟩ = parseP ⟨E, cfg, fuel⟩ := by
  with_unfolding_all rfl

/-- **C30.** Unless image sizes are asked for and images are enabled, no request is
made, and the result is the same whatever is out there. -/
theorem C30_no_network (E : Env) (sz : Str → Option (Int × Int)) (t : Textile) (fuel : Nat) (text : Str)
    (h : t.cfg.getSizes = false ∨ t.cfg.noimage = true) :
    (∀ u, .probe u ∉ trace ⟨E, t.cfg, fuel⟩ (parseP ⟨E, t.cfg, fuel⟩ text) { cache := t.cache }) ∧
    t.parse { E with imageSize := sz } fuel text = t.parse E fuel text := by
  have key : ∀ e ∈ trace ⟨E, t.cfg, fuel⟩ (parseP ⟨E, t.cfg, fuel⟩ text) { cache := t.cache }, ∀ u, e ≠ .probe u := by
    rintro e he u rfl
    have := (allowed_basic ⟨E, t.cfg, fuel⟩).closed.parseP text _ _ he
    simp [Allowed] at this
    rcases h with h | h <;> simp [h] at this
  refine ⟨fun u hu => key _ hu u rfl, ?_⟩
  unfold Textile.parse
  rw [parseP_imageSize, run_no_probe E sz t.cfg fuel _ _ key]

/-- With `set_getting_image_size(true)` and images enabled a request is made, and the
answer shows in the output. -/
example : parseFresh { demoEnv with imageSize := fun _ => some (3, 4) } 100 { demoCfg with getSizes := true }
    t!"!http://a/b.png!" =
    .ok t!"<p><img alt=\"\" height=\"4\" src=\"http://a/b.png\" width=\"3\" /></p>" := by decide +kernel

/-- The default settings do not ask for sizes. -/
theorem C30_default (base : Str) : (built base []).getSizes = false := rfl

/-! ## C27, C28 -/

theorem UniOk.alnumOk {U : Uni} (h : UniOk U) : AlnumOk U := by
  intro c hc
  have hw : isWs c = false := by
    cases hw : isWs c with
    | false => rfl
    | true => rw [h.alnumWs c hw] at hc; simp at hc
  have hx : ∀ d : Char, d.toNat < 128 → (isUp d || isLow d || isDig d) = false → c ≠ d := by
    rintro d hd hd' rfl
    rw [h.alnum c hd, hd'] at hc; simp at hc
  have h1 := hx '/' (by decide) (by decide)
  have h2 := hx '>' (by decide) (by decide)
  have hs : Spec.isSpace c = false := by
    cases hs : Spec.isSpace c with
    | false => rfl
    | true => rw [isSpace_iff] at hs; simp [hs] at hw
  simp [Spec.tagNameEnd, hs, h1, h2]

theorem UniOk.name {U : Uni} (h : UniOk U) {tag : Str}
    (ht : tag.all (fun c => decide (c.toNat < 128) && (isUp c || isLow c || isDig c)) = true) :
    ∀ c ∈ tag, U.isAlnum c = true := by
  intro c hc
  have := List.all_eq_true.1 ht c hc
  simp only [Bool.and_eq_true, decide_eq_true_eq] at this
  rw [h.alnum c this.1]; exact this.2

theorem attrValue_eq (k : Str) : ∀ (l : List (Str × Str)), Spec.attrValue k l = alLookup k l
  | [] => rfl
  | (a, b) :: l => by
    have ih := attrValue_eq k l
    unfold Spec.attrValue at ih ⊢
    rw [List.find?_cons, alLookup]
    by_cases h : a = k
    · simp [h]
    · have : (a == k) = false := by simpa using h
      simp only [this, if_neg h]; exact ih

theorem alLookup_shown {k : Str} (hk : k.all isValidAttrChar = true) : ∀ (l : List (Str × Str)),
    alLookup k ((l.filter (fun a => a.1.all isValidAttrChar)).map (fun a => (a.1, a.2.map Spec.swapNewlines))) =
      (alLookup k l).map (·.map Spec.swapNewlines)
  | [] => rfl
  | (a, b) :: l => by
    have ih := alLookup_shown hk l
    rw [List.filter_cons]
    by_cases h : a = k
    · subst h
      simp only [hk, if_true, List.map_cons, alLookup, Option.map_some]
    · split
      · simp only [List.map_cons, alLookup, if_neg h]; exact ih
      · rw [alLookup, if_neg h]; exact ih

theorem btInsert_names {β : Type} {k : Str} {v : β} : ∀ {l : List (Str × β)}, k ≠ [] → (∀ a ∈ l, a.1 ≠ []) →
    ∀ a ∈ btInsert k v l, a.1 ≠ []
  | [], hk, _, a, ha => by simp [btInsert] at ha; subst ha; exact hk
  | (x, y) :: l, hk, hl, a, ha => by
    rw [btInsert] at ha
    have ih := btInsert_names (v := v) hk (fun a ha => hl a (List.mem_cons_of_mem _ ha))
    split at ha
    · rename_i hx
      rcases List.mem_cons.1 ha with rfl | h
      · simp only [hx]; exact hk
      · exact hl a (by simp [h])
    · split at ha
      · rcases List.mem_cons.1 ha with rfl | h
        · exact hk
        · exact hl a h
      · rcases List.mem_cons.1 ha with rfl | h
        · exact hl _ (by simp)
        · exact ih a h

theorem addOpt_names {k : Str} {v : Option Str} {a : HtmlAttrs} (hk : k ≠ []) (ha : ∀ x ∈ a, x.1 ≠ []) :
    ∀ x ∈ HtmlAttrs.addOpt k v a, x.1 ≠ [] := by
  unfold HtmlAttrs.addOpt HtmlAttrs.insert
  cases v with
  | none => exact ha
  | some v => exact btInsert_names hk ha

theorem addOpt_lookup {k k' : Str} {v : Option Str} {a : HtmlAttrs} (h : k ≠ k') :
    alLookup k' (HtmlAttrs.addOpt k v a) = alLookup k' a := by
  unfold HtmlAttrs.addOpt HtmlAttrs.insert
  cases v with
  | none => rfl
  | some v => simp only; rw [btInsert_lookup, if_neg h]

theorem html_names (a : BAttrs) : ∀ x ∈ a.html, x.1 ≠ [] := by
  unfold BAttrs.html
  repeat' apply addOpt_names (by decide)
  simp

/-- The attributes a user can set. -/
def userAttrs : List Str := [t!"width", t!"style", t!"span", t!"rowspan", t!"lang", t!"id", t!"colspan", t!"class"]

theorem html_lookup (a : BAttrs) {k : Str} (hk : k ∉ userAttrs) : alLookup k a.html = none := by
  simp only [userAttrs, List.mem_cons, List.not_mem_nil, or_false, not_or] at hk
  unfold BAttrs.html
  repeat rw [addOpt_lookup (by intro e; rw [e] at hk; simp at hk)]
  rfl

theorem insertCssClass_names {U : Uni} {n : Str} {a : HtmlAttrs} (ha : ∀ x ∈ a, x.1 ≠ []) :
    ∀ x ∈ HtmlAttrs.insertCssClass U n a, x.1 ≠ [] := by
  unfold HtmlAttrs.insertCssClass
  simp only
  split
  · split <;> exact btInsert_names (by decide) ha
  · exact ha

/-- The link elements made by `f_link`: a start tag `a` whose `href` is a placeholder
of a URL entered into the reference cache, with an allowed scheme; `rel` as set. -/
def LinkOk (C : Ctx) (es : List Event) (v : Str) : Prop :=
  ∃ attrs rest n d u src,
    Spec.readTag v = some (t!"a", attrs, false, rest) ∧
    Spec.attrValue t!"href" attrs = some ((C.cfg.uid ++ natStr n ++ t!":url").map Spec.swapNewlines) ∧
    Spec.attrValue t!"rel" attrs = C.cfg.rel.map (·.map Spec.swapNewlines) ∧
    .cached .url d n u ∈ es ∧
    Spec.SchemeOk C.E.urlParse C.cfg.restricted src ∧
    u = encodeHtml (match C.E.urlParse src with
      | some (_, full) => full
      | none => (UrlBits.parse C.E src).toStr) true true

/-- The image elements made by `f_image`: a self-closing tag `img` whose `src` is a
placeholder of a URL entered into the reference cache; the URL as written has an
allowed scheme (in restricted mode, the URL as it is before `<` and `>` are
unescaped).  The element may be wrapped in a link. -/
def ImageOk (C : Ctx) (es : List Event) (v : Str) : Prop :=
  ∃ img attrs n d u src src',
    (v = img ∨ ∃ href, Spec.readTag v = some (t!"a", [(t!"href", href)], false, img ++ t!"</a>")) ∧
    Spec.readTag img = some (t!"img", attrs, true, []) ∧
    Spec.attrValue t!"src" attrs = some ((C.cfg.uid ++ natStr n ++ t!":url").map Spec.swapNewlines) ∧
    .cached .url d n u ∈ es ∧
    Spec.SchemeOk C.E.urlParse C.cfg.restricted src ∧
    (if C.cfg.restricted then reverseEncodeHtml C.U src = .ok src' else src' = src) ∧
    u = encodeHtml (if src' = [] then [] else match C.E.urlParse src' with
      | some (_, full) => full
      | none => (UrlBits.parse C.E src').toStr) true true

/-- The elements recorded by an event are as they should be, given the other events. -/
def EvOk (C : Ctx) (es : List Event) : Event → Prop
  | .stored .link _ v => LinkOk C es v
  | .stored .image _ v => ImageOk C es v
  | _ => True

theorem EvOk.mono {C : Ctx} {es es' : List Event} (h : ∀ e ∈ es, e ∈ es') {e : Event} (he : EvOk C es e) :
    EvOk C es' e := by
  unfold EvOk at *
  split
  · obtain ⟨a, r, n, d, u, s, h1, h2, h3, h4, h5⟩ := he
    exact ⟨a, r, n, d, u, s, h1, h2, h3, h _ h4, h5⟩
  · obtain ⟨a, r, n, d, u, s, s', h1, h2, h3, h4, h5⟩ := he
    exact ⟨a, r, n, d, u, s, s', h1, h2, h3, h _ h4, h5⟩
  · trivial

/-- `p`, run after the events `es`, makes good elements. -/
def Makes (C : Ctx) (es : List Event) {α : Type} (p : Prog α) : Prop :=
  ∀ w, ∀ e ∈ trace C p w, EvOk C (es ++ trace C p w) e

theorem Makes.after {C : Ctx} {es es' : List Event} {α : Type} {p : Prog α} (hs : ∀ e ∈ es, e ∈ es')
    (h : Makes C es p) : Makes C es' p := by
  intro w e he
  refine (h w e he).mono ?_
  intro x hx
  rw [List.mem_append] at hx ⊢
  exact hx.imp (hs x) id

theorem makes_bind {C : Ctx} {es : List Event} {α β : Type} {p : Prog α} {f : α → Prog β}
    (hp : Makes C es p) (hf : ∀ a, Makes C es (f a)) : Makes C es (p >>= f) := by
  intro w e he
  rw [trace_bind] at he ⊢
  rw [List.mem_append] at he
  rcases he with he | he
  · refine (hp w e he).mono ?_
    intro x hx
    simp only [List.mem_append] at hx ⊢
    rcases hx with h | h
    · exact .inl h
    · exact .inr (.inl h)
  · cases hr : run C p w with
    | error x => rw [hr] at he; simp at he
    | ok q =>
      rw [hr] at he
      refine (hf q.1 q.2 e he).mono ?_
      intro x hx
      simp only [List.mem_append] at hx ⊢
      rcases hx with h | h
      · exact .inl h
      · exact .inr (.inr h)

/-- Entering a URL, then something that may use the entry. -/
theorem makes_url {C : Ctx} {es : List Event} {α : Type} {u : UrlString} {f : Str → Prog α}
    (hf : ∀ d n, Makes C (.cached .url d n (u.toHtml C.E) :: es) (f (C.cfg.uid ++ natStr n ++ t!":url"))) :
    Makes C es (shelveUrl C u >>= f) := by
  intro w e he
  have et : trace C (shelveUrl C u >>= f) w =
      .cached .url w.st.spanDepth (w.st.refIndex + 1) (u.toHtml C.E) ::
        trace C (f (C.cfg.uid ++ natStr (w.st.refIndex + 1) ++ t!":url")) (w.cacheRef (u.toHtml C.E)).2 := rfl
  rw [et] at he ⊢
  rcases List.mem_cons.1 he with rfl | he
  · trivial
  · refine (hf w.st.spanDepth (w.st.refIndex + 1) _ e he).mono ?_
    intro x hx
    simp only [List.mem_append, List.mem_cons] at hx ⊢
    rcases hx with (h | h) | h
    · exact .inr (.inl h)
    · exact .inl h
    · exact .inr (.inr h)

theorem makes_silent {C : Ctx} {es : List Event} {α : Type} {p : Prog α}
    (h : ∀ w, ∀ e ∈ trace C p w, (∀ k v, e ≠ .stored .link k v) ∧ ∀ k v, e ≠ .stored .image k v) : Makes C es p := by
  intro w e he
  obtain ⟨h1, h2⟩ := h w e he
  unfold EvOk
  split
  · exact absurd rfl (h1 _ _)
  · exact absurd rfl (h2 _ _)
  · trivial

theorem makes_plain (C : Ctx) (es : List Event) : Plain C (Makes C es) where
  ret a := makes_silent (by intro w e he; simp [trace] at he)
  fail a := makes_silent (by intro w e he; simp [trace] at he)
  bind := makes_bind
  shelve v := makes_silent (by intro w e he; simp [shelveP, trace] at he; subst he; simp)
  cacheRef k v := makes_silent (by intro w e he; simp [cacheRefP, trace] at he; subst he; simp)
  getSt := makes_silent (by intro w e he; simp [getStP, trace] at he)
  probe _ _ u := makes_silent (by intro w e he; simp [probeP, trace] at he; subst he; simp)

theorem schemeOk_iff (C : Ctx) (src : Str) :
    Spec.SchemeOk C.E.urlParse C.cfg.restricted src ↔
      ((UrlBits.parse C.E src).scheme.isEmpty || C.cfg.schemes.contains (UrlBits.parse C.E src).scheme) = true := by
  have hs : C.cfg.schemes = Spec.allowedSchemes C.cfg.restricted := by
    unfold Cfg.schemes Spec.allowedSchemes; cases C.cfg.restricted <;> rfl
  rw [hs]
  unfold Spec.SchemeOk UrlBits.parse
  cases h : C.E.urlParse src with
  | none =>
    have : ∀ b : UrlBits, b.scheme = [] → (b.scheme.isEmpty ||
        (Spec.allowedSchemes C.cfg.restricted).contains b.scheme) = true := by
      intro b hb; simp [hb]
    simp only [reduceCtorEq, false_implies, implies_true, true_iff]
    apply this
    (repeat' split) <;> rfl
  | some q => obtain ⟨a, b⟩ := q; simp [UrlBits.scheme]

theorem toStr_abs (C : Ctx) (src : Str) : (UrlBits.parse C.E src).toStr = match C.E.urlParse src with
      | some (_, full) => full
      | none => (UrlBits.parse C.E src).toStr := by
  cases h : C.E.urlParse src with
  | none => rfl
  | some q => simp [UrlBits.parse, h, UrlBits.toStr]

theorem makes_shelve_link {C : Ctx} {es : List Event} {v : Str} (h : LinkOk C es v) : Makes C es (shelveP v .link) := by
  intro w e he
  simp [shelveP, trace] at he
  subst he
  exact EvOk.mono (es := es) (e := .stored .link (w.shelve C.cfg.uid v).1 v) (by simp +contextual) h

theorem makes_shelve_image {C : Ctx} {es : List Event} {v : Str} (h : ImageOk C es v) : Makes C es (shelveP v .image) := by
  intro w e he
  simp [shelveP, trace] at he
  subst he
  exact EvOk.mono (es := es) (e := .stored .image (w.shelve C.cfg.uid v).1 v) (by simp +contextual) h

theorem rel_lookup (rel : Option Str) (a : HtmlAttrs) (k : Str) :
    alLookup k (match rel with | some r => HtmlAttrs.insert t!"rel" r a | none => a) =
      if k = t!"rel" ∧ rel.isSome then rel else alLookup k a := by
  cases rel with
  | none => simp
  | some r =>
    simp only [HtmlAttrs.insert, btInsert_lookup, Option.isSome_some, and_true]
    by_cases h : k = t!"rel"
    · rw [if_pos h.symm, if_pos h]
    · rw [if_neg (fun e => h e.symm), if_neg h]

/-- The part of `f_link` that makes the element. -/
def linkTail (C : Ctx) (spanF : Str → Prog Str) (src text2 atts title1 : Str) (k : Str → Str) : Prog Str := do
  let text3 ← spanF text2
  let text4 := glyphs C text3
  let urlId ← shelveUrl C (.normalized (UrlBits.parse C.E src).toStr)
  let ba ← parseAttrs C atts none
  let a1 := HtmlAttrs.insert t!"href" urlId ba.html
  let a2 ← (if title1.isEmpty then pure a1 else do
    let tid ← shelveP title1
    pure (HtmlAttrs.insert t!"title" tid a1) : Prog HtmlAttrs)
  let a3 := match C.cfg.rel with
    | some rel => HtmlAttrs.insert t!"rel" rel a2
    | none => a2
  let tok ← shelveP (generateTag C.U t!"a" (some text4) a3) .link
  pure (k tok)

theorem makes_linkTail {C : Ctx} (hU : UniOk C.U) {spanF : Str → Prog Str} (hs : ∀ t, Makes C [] (spanF t))
    {src : Str} (hsch : Spec.SchemeOk C.E.urlParse C.cfg.restricted src) (text2 atts title1 : Str) (k : Str → Str) :
    Makes C [] (linkTail C spanF src text2 atts title1 k) := by
  have H := makes_plain C []
  unfold linkTail
  refine H.bind (hs _) (fun t3 => ?_)
  refine makes_url (fun d n => ?_)
  have H' := makes_plain C [.cached .url d n (UrlString.toHtml C.E (.normalized (UrlBits.parse C.E src).toStr))]
  refine H'.bind (H'.ofR _) (fun ba => ?_)
  have fin : ∀ a2 : HtmlAttrs, (∀ x ∈ a2, x.1 ≠ []) →
      alLookup t!"href" a2 = some (C.cfg.uid ++ natStr n ++ t!":url") → alLookup t!"rel" a2 = none →
      Makes C [.cached .url d n (UrlString.toHtml C.E (.normalized (UrlBits.parse C.E src).toStr))]
        (shelveP (generateTag C.U t!"a" (some (glyphs C t3)) (match C.cfg.rel with
          | some rel => HtmlAttrs.insert t!"rel" rel a2
          | none => a2)) .link) := by
    intro a2 hn hh hr
    refine makes_shelve_link ?_
    have hnames : ∀ x ∈ (match C.cfg.rel with
          | some rel => HtmlAttrs.insert t!"rel" rel a2
          | none => a2), x.1 ≠ [] := by
      split
      · exact btInsert_names (by decide) hn
      · exact hn
    refine ⟨_, _, n, d, UrlString.toHtml C.E (.normalized (UrlBits.parse C.E src).toStr), src,
      C19_tag C.U hU.alnumOk t!"a" _ _ (by decide) (hU.name (by decide)) hnames, ?_, ?_, ?_, ?_, ?_⟩
    · rw [attrValue_eq, alLookup_shown (by decide), rel_lookup, if_neg (by simp), hh]; rfl
    · rw [attrValue_eq, alLookup_shown (by decide), rel_lookup]
      cases hrel : C.cfg.rel with
      | none => simp [hr]
      | some r => simp
    · exact List.mem_cons_self
    · exact hsch
    · rw [← toStr_abs]; rfl
  have h1n : ∀ x ∈ HtmlAttrs.insert t!"href" (C.cfg.uid ++ natStr n ++ t!":url") ba.html, x.1 ≠ [] :=
    btInsert_names (by decide) (html_names ba)
  have h1h : alLookup t!"href" (HtmlAttrs.insert t!"href" (C.cfg.uid ++ natStr n ++ t!":url") ba.html) =
      some (C.cfg.uid ++ natStr n ++ t!":url") := by
    rw [HtmlAttrs.insert, btInsert_lookup, if_pos rfl]
  have h1r : alLookup t!"rel" (HtmlAttrs.insert t!"href" (C.cfg.uid ++ natStr n ++ t!":url") ba.html) = none := by
    rw [HtmlAttrs.insert, btInsert_lookup, if_neg (by decide)]
    exact html_lookup ba (by decide)
  split
  · rw [pure_bind]
    exact H'.bind (fin _ h1n h1h h1r) (fun _ => H'.ret _)
  · rw [LawfulMonad.bind_assoc]
    refine H'.bind (H'.shelve _) (fun tid => ?_)
    rw [pure_bind]
    refine H'.bind (fin _ ?_ ?_ ?_) (fun _ => H'.ret _)
    · exact btInsert_names (by decide) h1n
    · rw [HtmlAttrs.insert, btInsert_lookup, if_neg (by decide)]; exact h1h
    · rw [HtmlAttrs.insert, btInsert_lookup, if_neg (by decide)]; exact h1r

theorem makes_link {C : Ctx} (hU : UniOk C.U) {spanF : Str → Prog Str} (hs : ∀ t, Makes C [] (spanF t))
    (him : C.cfg.noimage = false → ∀ t, Makes C [] (image C t)) (m : Mat) : Makes C [] (fLink C spanF m) := by
  have H := makes_plain C []
  unfold fLink
  dsimp only
  split
  · exact H.ret _
  · refine H.bind (H.ofR _) (fun q => ?_)
    refine H.bind (H.unrestrictUrl _) (fun src => ?_)
    split
    · exact H.ret _
    · rename_i hsch
      refine H.bind H.getSt (fun st => ?_)
      split
      · rw [pure_bind]
        exact makes_linkTail hU hs ((schemeOk_iff C src).2 (by rw [Bool.not_eq_true', Bool.not_eq_false] at hsch; exact hsch)) _ _ _
          (fun tok => q.2.2.2 ++ tok ++ q.2.1 ++ q.2.2.1)
      · rename_i h
        exact H.bind (him (by simpa using h) _) (fun t2 =>
          makes_linkTail hU hs ((schemeOk_iff C src).2 (by rw [Bool.not_eq_true', Bool.not_eq_false] at hsch; exact hsch)) _ _ _
            (fun tok => q.2.2.2 ++ tok ++ q.2.1 ++ q.2.2.1))

/-- A step whose result has a property. -/
theorem makes_bind' {C : Ctx} {es : List Event} {α β : Type} {p : Prog α} {f : α → Prog β} (Q : α → Prop)
    (hp : Makes C es p) (hq : ∀ w a w', run C p w = .ok (a, w') → Q a)
    (hf : ∀ a, Q a → Makes C es (f a)) : Makes C es (p >>= f) := by
  intro w e he
  rw [trace_bind] at he ⊢
  rw [List.mem_append] at he
  rcases he with he | he
  · refine (hp w e he).mono ?_
    intro x hx
    simp only [List.mem_append] at hx ⊢
    rcases hx with h | h
    · exact .inl h
    · exact .inr (.inl h)
  · cases hr : run C p w with
    | error x => rw [hr] at he; simp at he
    | ok q =>
      rw [hr] at he
      refine (hf q.1 (hq _ _ _ hr) q.2 e he).mono ?_
      intro x hx
      simp only [List.mem_append] at hx ⊢
      rcases hx with h | h
      · exact .inl h
      · exact .inr (.inr h)

def NamesOk (a : HtmlAttrs) : Prop := ∀ x ∈ a, x.1 ≠ []

theorem imageAttrs_names {C : Ctx} {m : Mat} {w w' : World} {a : HtmlAttrs}
    (h : run C (imageAttrs C m) w = .ok (a, w')) : NamesOk a := by
  unfold imageAttrs at h
  obtain ⟨ba, w1, h1, h2⟩ := run_bind_inv h
  split at h2
  · obtain ⟨al, w2, h3, h4⟩ := run_bind_inv h2
    split at h4
    · simp only [run_pure, Except.ok.injEq, Prod.mk.injEq] at h4
      rw [← h4.1]; exact insertCssClass_names (html_names ba)
    · simp only [run_pure, Except.ok.injEq, Prod.mk.injEq] at h4
      rw [← h4.1]; exact btInsert_names (by decide) (html_names ba)
  · simp only [run_pure, Except.ok.injEq, Prod.mk.injEq] at h2
    rw [← h2.1]; exact html_names ba

theorem imageSizeAttrs_names {C : Ctx} {u : Str} {a0 : HtmlAttrs} (h0 : NamesOk a0) {w w' : World} {a : HtmlAttrs}
    (h : run C (imageSizeAttrs C u a0) w = .ok (a, w')) : NamesOk a := by
  unfold imageSizeAttrs at h
  split at h
  · obtain ⟨q, w1, h1, h2⟩ := run_bind_inv h
    split at h2
    · simp only [run_pure, Except.ok.injEq, Prod.mk.injEq] at h2
      rw [← h2.1]; exact btInsert_names (by decide) (btInsert_names (by decide) h0)
    · simp only [run_pure, Except.ok.injEq, Prod.mk.injEq] at h2
      rw [← h2.1]; exact h0
  · simp only [run_pure, Except.ok.injEq, Prod.mk.injEq] at h
    rw [← h.1]; exact h0

theorem unrestrictUrl_run {C : Ctx} {u u' : Str} {w w' : World} (h : run C (unrestrictUrl C u) w = .ok (u', w')) :
    if C.cfg.restricted then reverseEncodeHtml C.U u = .ok u' else u' = u := by
  unfold unrestrictUrl at h
  split
  · rename_i hr
    rw [if_pos hr] at h
    cases hq : reverseEncodeHtml C.U u with
    | error e => rw [hq] at h; simp [ofR, run] at h
    | ok x => rw [hq] at h; simp [ofR, run] at h; rw [h.1]
  · rename_i hr
    rw [if_neg hr] at h
    simp only [run_pure, Except.ok.injEq, Prod.mk.injEq] at h
    exact h.1.symm

theorem makes_image {C : Ctx} (hU : UniOk C.U) (hi : C.cfg.noimage = false) (m : Mat) : Makes C [] (fImage C m) := by
  have H := makes_plain C []
  unfold fImage
  dsimp only
  split
  · exact H.ret _
  · rename_i hv
    refine makes_bind' NamesOk (H.imageAttrs m) (fun _ _ _ h => imageAttrs_names h) (fun a0 h0 => ?_)
    refine makes_bind' NamesOk (H.imageSizeAttrs hi _ _)
      (fun _ _ _ h => imageSizeAttrs_names (btInsert_names (by decide) h0) h) (fun a2 h2 => ?_)
    refine makes_bind' _ (H.unrestrictUrl _) (fun _ _ _ h => unrestrictUrl_run h) (fun src' hsrc => ?_)
    refine makes_url (fun d n => ?_)
    have H' := makes_plain C [.cached .url d n (UrlString.toHtml C.E (.raw src'))]
    have hn : NamesOk (match m.get? 4 with
        | some t => HtmlAttrs.insert t!"title" t (HtmlAttrs.insert t!"src" (C.cfg.uid ++ natStr n ++ t!":url") a2)
        | none => HtmlAttrs.insert t!"src" (C.cfg.uid ++ natStr n ++ t!":url") a2) := by
      split
      · exact btInsert_names (by decide) (btInsert_names (by decide) h2)
      · exact btInsert_names (by decide) h2
    have hl : alLookup t!"src" (match m.get? 4 with
        | some t => HtmlAttrs.insert t!"title" t (HtmlAttrs.insert t!"src" (C.cfg.uid ++ natStr n ++ t!":url") a2)
        | none => HtmlAttrs.insert t!"src" (C.cfg.uid ++ natStr n ++ t!":url") a2) =
          some (C.cfg.uid ++ natStr n ++ t!":url") := by
      split
      · rw [HtmlAttrs.insert, btInsert_lookup, if_neg (by decide), HtmlAttrs.insert, btInsert_lookup, if_pos rfl]
      · rw [HtmlAttrs.insert, btInsert_lookup, if_pos rfl]
    have key : ∀ (es : List Event) (v : Str),
        (v = generateTag C.U t!"img" none (match m.get? 4 with
          | some t => HtmlAttrs.insert t!"title" t (HtmlAttrs.insert t!"src" (C.cfg.uid ++ natStr n ++ t!":url") a2)
          | none => HtmlAttrs.insert t!"src" (C.cfg.uid ++ natStr n ++ t!":url") a2) ∨
        ∃ href, Spec.readTag v = some (t!"a", [(t!"href", href)], false,
          generateTag C.U t!"img" none (match m.get? 4 with
          | some t => HtmlAttrs.insert t!"title" t (HtmlAttrs.insert t!"src" (C.cfg.uid ++ natStr n ++ t!":url") a2)
          | none => HtmlAttrs.insert t!"src" (C.cfg.uid ++ natStr n ++ t!":url") a2) ++ t!"</a>")) →
        Event.cached .url d n (UrlString.toHtml C.E (.raw src')) ∈ es →
        Makes C es (shelveP v .image) := by
      intro es v hv' hes
      refine makes_shelve_image ?_
      refine ⟨_, _, n, d, _, m.grp 3, src', hv',
        C19_tag C.U hU.alnumOk t!"img" _ _ (by decide) (hU.name (by decide)) hn, ?_, hes, ?_, hsrc, ?_⟩
      · rw [attrValue_eq, alLookup_shown (by decide), hl]; rfl
      · rw [schemeOk_iff]
        have : isValidUrl C (m.grp 3) = true := by simpa using hv
        exact this
      · rw [← toStr_abs]
        unfold UrlString.toHtml UrlString.toStr
        cases src' <;> simp
    split
    · refine makes_bind' (fun v => ∃ href, v = generateTag C.U t!"a" (some (generateTag C.U t!"img" none (match m.get? 4 with
          | some t => HtmlAttrs.insert t!"title" t (HtmlAttrs.insert t!"src" (C.cfg.uid ++ natStr n ++ t!":url") a2)
          | none => HtmlAttrs.insert t!"src" (C.cfg.uid ++ natStr n ++ t!":url") a2))) [(t!"href", href)] ∨
          v = generateTag C.U t!"img" none (match m.get? 4 with
          | some t => HtmlAttrs.insert t!"title" t (HtmlAttrs.insert t!"src" (C.cfg.uid ++ natStr n ++ t!":url") a2)
          | none => HtmlAttrs.insert t!"src" (C.cfg.uid ++ natStr n ++ t!":url") a2)) ?_ ?_ (fun v hv' => ?_)
      · refine H'.bind (H'.unrestrictUrl _) (fun h => H'.bind (H'.shelveUrl _) (fun id => ?_))
        split <;> exact H'.ret _
      · intro w a w' h
        obtain ⟨x, w1, _, h2⟩ := run_bind_inv h
        obtain ⟨id, w2, _, h3⟩ := run_bind_inv h2
        refine ⟨id, ?_⟩
        split at h3
        · simp only [run_pure, Except.ok.injEq, Prod.mk.injEq] at h3; exact .inr h3.1.symm
        · simp only [run_pure, Except.ok.injEq, Prod.mk.injEq] at h3; exact .inl h3.1.symm
      · obtain ⟨href, hv' | hv'⟩ := hv'
        · refine key _ _ (.inr ⟨href.map Spec.swapNewlines, ?_⟩) List.mem_cons_self
          rw [hv', C19_tag C.U hU.alnumOk t!"a" _ _ (by decide) (hU.name (by decide)) (by simp)]
          have hf : ([(t!"href", href)] : List (Str × Str)).filter (fun a => a.1.all isValidAttrChar) = [(t!"href", href)] := by
            have : (t!"href").all isValidAttrChar = true := by decide
            rw [List.filter_cons_of_pos (by exact this)]; rfl
          rw [hf]
          simp
        · exact key _ _ (.inl hv') List.mem_cons_self
    · rw [pure_bind]
      exact key _ _ (.inl rfl) List.mem_cons_self

theorem makes_closed {C : Ctx} (hU : UniOk C.U) : Closed C (Makes C []) := by
  have H := makes_plain C []
  have sil : ∀ {α : Type} {p : Prog α}, (∀ w, trace C p w = []) → Makes C [] p :=
    fun h => makes_silent (by intro w e he; rw [h] at he; simp at he)
  have inc : Makes C [] incLinkP := makes_silent (by intro w e he; simp [incLinkP, trace] at he; subst he; simp)
  have sa : ∀ f, Makes C [] (setAuxP f) := fun f => sil (fun _ => rfl)
  have sf : ∀ l i, Makes C [] (setFootnoteP l i) := fun l i => sil (fun _ => rfl)
  refine { ret := H.ret, fail := H.fail, bind := H.bind, shelve := H.shelve,
           storeUrl := H.shelveUrl, storeTags := H.storeTags,
           image := fun hi => makes_image hU hi, link := makes_link hU,
           incLink := inc, setAux := fun f _ => sa f, getSt := H.getSt, getPat := fun s => sil (fun _ => rfl),
           level := ?level, splitNotes := sa _, footnote := ?_, noteRef := ?_,
           ensureNote := ?_, storeNote := ?_ }
  case level =>
    intro body text hb
    refine H.bind (sil (fun _ => rfl)) (fun d => H.bind ?_ (fun t => H.bind (sil (fun _ => rfl)) (fun _ => H.ret _)))
    split
    · exact hb
    · exact H.ret _
  · exact (H.notes inc sf sa).1
  · exact (H.notes inc sf sa).2.1
  · exact (H.notes inc sf sa).2.2.1
  · exact (H.notes inc sf sa).2.2.2

/-- **C27** (the elements as they are made).  For every text and every URL parser:
every link element made has an `href` that is the placeholder of an entry of the URL
table, and the entry is a relative URL or has an allowed scheme; likewise for the
`src` of every image element.

Missing: `C27_negation_image_link`, `C27_negation_alias` show that the statement does
not hold for the link around an image, or for an alias resolved at the end; the step
from the element to the final output is not part of this theorem. -/
theorem C27_schemes_partial (C : Ctx) (hU : UniOk C.U) (text : Str) (w : World) (e : Event)
    (he : e ∈ trace C (parseP C text) w) :
    (∀ k v, e = .stored .link k v → ∃ attrs rest n d src,
      Spec.readTag v = some (t!"a", attrs, false, rest) ∧
      Spec.attrValue t!"href" attrs = some ((C.cfg.uid ++ natStr n ++ t!":url").map Spec.swapNewlines) ∧
      Spec.SchemeOk C.E.urlParse C.cfg.restricted src ∧
      .cached .url d n (encodeHtml (match C.E.urlParse src with
        | some (_, full) => full
        | none => (UrlBits.parse C.E src).toStr) true true) ∈ trace C (parseP C text) w) ∧
    (∀ k v, e = .stored .image k v → ∃ img attrs n d src src',
      (v = img ∨ ∃ href, Spec.readTag v = some (t!"a", [(t!"href", href)], false, img ++ t!"</a>")) ∧
      Spec.readTag img = some (t!"img", attrs, true, []) ∧
      Spec.attrValue t!"src" attrs = some ((C.cfg.uid ++ natStr n ++ t!":url").map Spec.swapNewlines) ∧
      Spec.SchemeOk C.E.urlParse C.cfg.restricted src ∧
      (if C.cfg.restricted then reverseEncodeHtml C.U src = .ok src' else src' = src) ∧
      .cached .url d n (encodeHtml (if src' = [] then [] else match C.E.urlParse src' with
        | some (_, full) => full
        | none => (UrlBits.parse C.E src').toStr) true true) ∈ trace C (parseP C text) w) := by
  have h := (makes_closed hU).parseP text w e he
  refine ⟨?_, ?_⟩
  · rintro k v rfl
    obtain ⟨a, r, n, d, u, src, h1, h2, _, h4, h5, h6⟩ := h
    subst h6
    exact ⟨a, r, n, d, src, h1, h2, h5, by simpa using h4⟩
  · rintro k v rfl
    obtain ⟨i, a, n, d, u, src, src', h1, h2, h3, h4, h5, h6, h7⟩ := h
    subst h7
    exact ⟨i, a, n, d, src, src', h1, h2, h3, h5, h6, by simpa using h4⟩

/-- A text that makes both kinds of elements. -/
example : trace ⟨demoEnv, demoCfg, 100⟩ (parseP ⟨demoEnv, demoCfg, 100⟩ t!"\"t\":http://c !a.png!") {} =
    [.cached .url 0 1 t!"http://c",
     .stored .link t!"textileRef:abc:2:shelve" t!"<a href=\"textileRef:abc:1:url\">t</a>",
     .cached .url 0 3 t!"a.png",
     .stored .image t!"textileRef:abc:4:shelve" t!"<img alt=\"\" src=\"textileRef:abc:3:url\" />"] := by
  decide +kernel

/-- The scheme `javascript` is not allowed; the URL parser of the example recognises it. -/
example : ¬ Spec.SchemeOk demoEnv.urlParse true t!"javascript:x" := by
  intro h
  have := h t!"javascript" t!"javascript:x" (by decide)
  revert this; decide

example : parseFresh demoEnv 100 demoCfg t!"\"t\":javascript:x !javascript:a!" =
    .ok t!"<p>&#8220;t&#8221;:javascript:x !javascript:a!</p>" := by decide +kernel

/-- **C27, negation.** The link around an image is not checked, not even in restricted mode. -/
theorem C27_negation_image_link :
    parseFresh demoEnv 100 { demoCfg with restricted := true } t!"!a.png!:javascript:x" =
      .ok t!"<p><a href=\"javascript:x\"><img alt=\"\" src=\"a.png\" /></a></p>" := by decide +kernel

/-- **C27, negation.** A URL alias only has to begin like an allowed scheme. -/
theorem C27_negation_alias :
    parseFresh demoEnv 100 { demoCfg with restricted := true } t!"\"t\":a\n\n[a]httpjs:x" =
      .ok t!"<p><a href=\"httpjs:x\">t</a></p>" := by decide +kernel

/-- **C28** (the elements as they are made).  For every text: the elements made for
links have the attribute `rel` exactly as set with `set_rel`.

Missing: `C28_negation` shows that the link around an image has no such attribute; the
step from the element to the final output is not part of this theorem. -/
theorem C28_rel_partial (C : Ctx) (hU : UniOk C.U) (text : Str) (w : World) (k v : Str)
    (he : .stored .link k v ∈ trace C (parseP C text) w) :
    ∃ attrs rest, Spec.readTag v = some (t!"a", attrs, false, rest) ∧
      Spec.attrValue t!"rel" attrs = C.cfg.rel.map (·.map Spec.swapNewlines) := by
  obtain ⟨a, r, n, d, u, src, h1, _, h3, _⟩ := (makes_closed hU).parseP text w _ he
  exact ⟨a, r, h1, h3⟩

/-- **C28, negation.** The link around an image does not get the attribute. -/
theorem C28_negation :
    parseFresh demoEnv 100 { demoCfg with rel := some t!"nofollow" } t!"!a.png!:b \"t\":c" =
      .ok t!"<p><a href=\"b\"><img alt=\"\" src=\"a.png\" /></a> <a href=\"c\" rel=\"nofollow\">t</a></p>" := by
  decide +kernel

end Rustextile
