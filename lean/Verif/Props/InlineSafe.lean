import Verif.EffectsSpan
import Verif.Props.InlineOnly
import Verif.Props.Attributes

/-!
# What authors can put into the tags of inline markup in restricted mode: C102
-/

namespace Rustextile

open Prog

/-- The names of attributes that are left to authors. -/
def leftNames : List Str := [t!"cite", t!"colspan", t!"lang", t!"rowspan", t!"span", t!"style", t!"width"]

/-- A written attribute with one of these names: its value is delimited by quotation marks that do not occur in it, has no
`<` or `>`, and, if it is a style, consists of the declarations for padding and alignment. -/
inductive LeftAttr : Str → Prop where
  | mk {k body v : Str} {d : Char} : k ∈ leftNames → (d = '"' ∨ d = '\'') → d ∉ body → '<' ∉ body → '>' ∉ body →
      Spec.decode body = v.map Spec.swapNewlines → (k = t!"style" → Spec.OwnStyle v) → LeftAttr (t!" " ++ k ++ t!"=" ++ (d :: body ++ [d]))

/-- A tag of inline markup with such attributes only. -/
inductive TameTag : Str → Prop where
  | opens {n : Str} {as : List Str} : n ∈ inlineNames → (∀ a ∈ as, LeftAttr a) → TameTag (t!"<" ++ n ++ as.flatten ++ t!">")
  | closes {n : Str} : n ∈ inlineNames → TameTag (t!"</" ++ n ++ t!">")

/-- The tags of inline markup that are made are such tags. -/
def TameEvent : Event → Prop
  | .cached .tag _ _ v => TameTag v
  | _ => True

theorem battrs_names {a : BAttrs} {k v : Str} (h : (k, v) ∈ a.html) :
    k ∈ t!"class" :: t!"id" :: leftNames := by
  unfold BAttrs.html at h
  iterate 8
    rcases mem_addOpt h with ⟨v', e, hp⟩ | h
    · simp only [Prod.mk.injEq] at hp; rw [hp.1]; decide
  simp at h

theorem left_attr {k v : Str} (hk : k ∈ leftNames) (hs : k = t!"style" → Spec.OwnStyle v) : LeftAttr (attrText (k, v)) := by
  obtain ⟨d, body, h1, h2, h3, h4, h5, h6⟩ := quoteattr_shape v
  unfold attrText
  dsimp only
  rw [h1]
  exact .mk hk h2 h3 h4 h5 h6 hs

theorem left_join {l : HtmlAttrs} (h : ∀ k v, (k, v) ∈ l → k ∈ leftNames ∧ (k = t!"style" → Spec.OwnStyle v)) :
    ∃ as : List Str, joinAttrs l = as.flatten ∧ ∀ a ∈ as, LeftAttr a := by
  refine ⟨(l.filter (fun a => a.1.all isValidAttrChar)).map attrText, ?_, ?_⟩
  · unfold joinAttrs; rw [List.flatMap_def]
  · intro a ha
    rw [List.mem_map] at ha
    obtain ⟨⟨k, v⟩, hm, rfl⟩ := ha
    have := h k v (List.mem_filter.mp hm).1
    exact left_attr this.1 this.2

section
variable {C : Ctx} {α : Type}

theorem te_ret (a : α) : AllEvents C TameEvent (Prog.ret a) := by intro w e he; simp [trace] at he

theorem te_pure (a : α) : AllEvents C TameEvent (pure a : Prog α) := te_ret a

theorem te_ofR (r : R α) : AllEvents C TameEvent (Prog.ofR r) := by
  cases r <;> intro w e he <;> simp [Prog.ofR, trace] at he

theorem te_fail (x : Err) : AllEvents C TameEvent (Prog.fail x : Prog α) := by intro w e he; simp [trace] at he

theorem te_getSt : AllEvents C TameEvent getStP := by intro w e he; simp [getStP, trace] at he

theorem te_getPat (s : Site) : AllEvents C TameEvent (getPatP s) := by intro w e he; simp [getPatP, trace] at he

theorem te_shelve (v : Str) (k : ShelfKind) : AllEvents C TameEvent (shelveP v k) := by
  intro w e he; simp [shelveP, trace] at he; subst he; trivial

theorem te_url (v : Str) : AllEvents C TameEvent (cacheRefP .url v) := by
  intro w e he; simp [cacheRefP, trace] at he; subst he; trivial

theorem te_probe (u : Str) : AllEvents C TameEvent (probeP u) := by
  intro w e he; simp [probeP, trace] at he; subst he; trivial

theorem te_incLink : AllEvents C TameEvent incLinkP := by
  intro w e he; simp [incLinkP, trace] at he; subst he; trivial

theorem te_setFootnote (l i : Str) : AllEvents C TameEvent (setFootnoteP l i) := by
  intro w e he; simp [setFootnoteP, trace] at he

theorem te_setAux (f : Aux → Aux) : AllEvents C TameEvent (setAuxP f) := by
  intro w e he; simp [setAuxP, trace] at he

/-- Walk through a program without tags of inline markup. -/
syntax "walkt" : tactic
macro_rules
  | `(tactic| walkt) => `(tactic| repeat' (first
      | with_reducible refine allEvents_bind ?_ (fun _ => ?_)
      | with_reducible exact te_ofR _ | with_reducible exact te_getSt | with_reducible exact te_getPat _
      | with_reducible exact te_shelve _ _ | with_reducible exact te_url _ | with_reducible exact te_probe _
      | with_reducible exact te_incLink | with_reducible exact te_setFootnote _ _ | with_reducible exact te_setAux _
      | with_reducible exact te_fail _ | with_reducible exact te_pure _
      | dsimp only
      | split))

theorem te_storeUrl (u : UrlString) : AllEvents C TameEvent (shelveUrl C u) := by
  unfold shelveUrl; walkt

theorem te_unrestrict (u : Str) : AllEvents C TameEvent (unrestrictUrl C u) := by
  unfold unrestrictUrl; walkt

theorem te_imageAttrs (m : Mat) : AllEvents C TameEvent (imageAttrs C m) := by
  unfold imageAttrs; walkt
  exact te_ofR _

theorem te_imageSize (u : Str) (a : HtmlAttrs) : AllEvents C TameEvent (imageSizeAttrs C u a) := by
  unfold imageSizeAttrs; walkt

theorem te_fImage (m : Mat) : AllEvents C TameEvent (fImage C m) := by
  unfold fImage
  walkt
  all_goals first | exact te_imageAttrs _ | exact te_imageSize _ _ | exact te_unrestrict _ | exact te_storeUrl _

theorem te_fLink {spanF : Str → Prog Str} (hs : ∀ t, AllEvents C TameEvent (spanF t))
    (him : C.cfg.noimage = false → ∀ t, AllEvents C TameEvent (image C t)) (m : Mat) : AllEvents C TameEvent (fLink C spanF m) := by
  unfold fLink
  walkt
  all_goals first
    | exact te_unrestrict _ | exact te_storeUrl _ | exact te_ofR _ | exact hs _
    | (rename_i h; exact him (by simpa using h) _)

theorem te_footnote (m : Mat) : AllEvents C TameEvent (fFootnote C m) := by
  unfold fFootnote; walkt

theorem te_noteRef (m : Mat) : AllEvents C TameEvent (fNoteRef C m) := by
  unfold fNoteRef noteSeq; walkt
  all_goals exact te_ofR _

theorem te_ensureNote (l : Str) : AllEvents C TameEvent (ensureNote C l) := by
  unfold ensureNote; walkt

theorem te_storeNote (l k a c : Str) : AllEvents C TameEvent (storeNote C l k a c) := by
  unfold storeNote; walkt
  all_goals exact te_ofR _

theorem te_tag {v : Str} (h : TameTag v) : AllEvents C TameEvent (cacheRefP .tag v) := by
  intro w e he
  simp [cacheRefP, trace] at he
  subst he
  exact h

theorem te_fSpan (hr : C.cfg.restricted = true) {rec : Str → Prog Str} (hs : ∀ t, AllEvents C TameEvent (rec t)) (m : Mat) :
    AllEvents C TameEvent (fSpan C rec m) := by
  unfold fSpan
  cases h : spanTag (m.grp 2) with
  | error x => intro w e he; simp [Prog.ofR, trace_bind, trace, run] at he
  | ok n =>
    have hn := spanTag_name h
    have e : ∀ {β γ : Type} (x : γ) (f : γ → Prog β), (Prog.ofR (.ok x) >>= f) = f x := fun _ _ => rfl
    rw [e]
    unfold parseAttrs
    cases h2 : BAttrs.parse C.U (m.grp 3) none C.cfg.restricted with
    | error x => intro w e he; simp [Prog.ofR, trace_bind, trace, run] at he
    | ok ba =>
      rw [hr] at h2
      rw [e]
      have hb : ∀ k v, (k, v) ∈ ba.html → k ∈ leftNames ∧ (k = t!"style" → Spec.OwnStyle v) := by
        intro k v hk
        obtain ⟨c1, c2, c3⟩ := C21_restricted_attributes _ _ _ _ h2 k v hk
        have := battrs_names hk
        simp only [List.mem_cons] at this
        rcases this with rfl | rfl | this
        · exact absurd rfl c1
        · exact absurd rfl c2
        · exact ⟨this, c3⟩
      have ha : ∀ k v, (k, v) ∈ (match m.get? 4 with
          | some cite => HtmlAttrs.insert t!"cite" (trim cite) ba.html
          | none => ba.html) → k ∈ leftNames ∧ (k = t!"style" → Spec.OwnStyle v) := by
        intro k v hk
        split at hk
        · rcases mem_btInsert hk with hk | hk
          · simp only [Prod.mk.injEq] at hk
            rw [hk.1]
            exact ⟨by decide, fun h => absurd h (by decide)⟩
          · exact hb k v hk
        · exact hb k v hk
      obtain ⟨as, h3, h4⟩ := left_join ha
      refine allEvents_bind (hs _) (fun c => allEvents_bind ?_ (fun _ => te_ret _))
      unfold storeTags
      refine allEvents_bind (te_tag ?_) (fun _ => allEvents_bind (te_tag (.closes hn)) (fun _ => te_ret _))
      have h5 : TameTag (t!"<" ++ n ++ as.flatten ++ t!">") := .opens hn h4
      rw [← h3] at h5
      exact h5

theorem te_guided (hr : C.cfg.restricted = true) : Guided C (AllEvents C TameEvent) where
  ret := te_ret
  fail := te_fail
  bind := allEvents_bind
  shelve v := te_shelve v _
  storeUrl := te_storeUrl
  spans := te_fSpan hr
  image _ := te_fImage
  link := te_fLink
  incLink := te_incLink
  footnote := te_footnote
  noteRef := te_noteRef
  ensureNote := te_ensureNote
  storeNote := te_storeNote
  splitNotes := te_setAux _
  setAux f _ := te_setAux f
  getSt := te_getSt
  getPat := te_getPat
  level := by
    intro body text hb
    refine allEvents_bind (by intro w e he; simp [spanEnterP, trace] at he) (fun d => allEvents_bind ?_ (fun t =>
      allEvents_bind (by intro w e he; simp [spanLeaveP, trace] at he) (fun _ => te_ret _)))
    split
    · exact hb
    · exact te_ret _

end

/-- **C102.** In restricted mode, every tag of inline markup that is made of a text is without class and identifier, with a
style only of padding and alignment, and with attribute values that cannot be left, whatever the text and the other options. -/
theorem C102_restricted_inline (E : Env) (fuel : Nat) (cfg : Cfg) (text : Str) (w : World) (d n : Nat) (v : Str)
    (h : .cached .tag d n v ∈ trace ⟨E, (Setter.restricted true).apply cfg, fuel⟩
      (parseP ⟨E, (Setter.restricted true).apply cfg, fuel⟩ text) w) : TameTag v :=
  (te_guided (C := ⟨E, (Setter.restricted true).apply cfg, fuel⟩) rfl).parseP text w _ h

/-- The class, the identifier and the colour are left out, the language is kept. -/
theorem C102_restricted_inline_ex : trace ⟨demoEnv, (Setter.restricted true).apply demoCfg, 100⟩
      (parseP ⟨demoEnv, (Setter.restricted true).apply demoCfg, 100⟩ t!"* %(b#c){color:red}[en]x%") {} =
    [.cached .tag 1 1 t!"<span lang=\"en\">", .cached .tag 1 2 t!"</span>"] := by
  decide +kernel

theorem tame_no_class : ¬ TameTag t!"<span class=\"b\">" := by
  intro h
  generalize hv : t!"<span class=\"b\">" = v at h
  cases h with
  | @opens n as hn has =>
    simp only [inlineNames, List.mem_cons, List.not_mem_nil, or_false] at hn
    rcases hn with rfl | rfl | rfl | rfl | rfl | rfl | rfl | rfl | rfl | rfl <;> simp at hv
    cases as with
    | nil => simp at hv
    | cons x l =>
      obtain ⟨hk, -⟩ := has x List.mem_cons_self
      simp only [leftNames, List.mem_cons, List.not_mem_nil, or_false] at hk
      rcases hk with rfl | rfl | rfl | rfl | rfl | rfl | rfl <;> simp at hv
  | closes hn => simp at hv

/-- Without restrictions, a tag can have a class. -/
theorem C102_unrestricted : ¬ ∀ (E : Env) (fuel : Nat) (cfg : Cfg) (text : Str) (w : World) (d n : Nat) (v : Str),
    .cached .tag d n v ∈ trace ⟨E, (Setter.restricted false).apply cfg, fuel⟩
      (parseP ⟨E, (Setter.restricted false).apply cfg, fuel⟩ text) w → TameTag v := by
  intro h
  refine tame_no_class (h demoEnv 100 demoCfg t!"%(b)x%" {} 1 1 _ ?_)
  decide +kernel

end Rustextile
