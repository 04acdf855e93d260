import Verif.Props.InlineSafe

/-!
# What authors can put into the tags of links in restricted mode: C103
-/

namespace Rustextile

open Prog

/-- An attribute of a link: one that is left to authors, or an address, a title or a relation, with a value that is
delimited by quotation marks that do not occur in it, and has no `<` or `>`. -/
inductive LinkAttr : Str → Prop where
  | left {a : Str} : LeftAttr a → LinkAttr a
  | own {k body : Str} {d : Char} : k ∈ [t!"href", t!"rel", t!"title"] → (d = '"' ∨ d = '\'') → d ∉ body → '<' ∉ body → '>' ∉ body →
      LinkAttr (t!" " ++ k ++ t!"=" ++ (d :: body ++ [d]))

/-- A link with such attributes only. -/
inductive TameLink : Str → Prop where
  | mk {as : List Str} {content : Str} : (∀ a ∈ as, LinkAttr a) → TameLink (t!"<a" ++ as.flatten ++ t!">" ++ content ++ t!"</a>")

/-- The links that are made are such links. -/
def LinkEvent : Event → Prop
  | .stored .link _ v => TameLink v
  | _ => True

/-- The attributes of a link. -/
def LinkSet (l : HtmlAttrs) : Prop :=
  ∀ k v, (k, v) ∈ l → k ∈ [t!"href", t!"rel", t!"title"] ∨ (k ∈ leftNames ∧ (k = t!"style" → Spec.OwnStyle v))

theorem linkSet_insert {k v : Str} {l : HtmlAttrs} (hk : k ∈ [t!"href", t!"rel", t!"title"]) (h : LinkSet l) : LinkSet (HtmlAttrs.insert k v l) := by
  intro k' v' hm
  rcases mem_btInsert hm with hm | hm
  · simp only [Prod.mk.injEq] at hm; rw [hm.1]; exact .inl hk
  · exact h k' v' hm

theorem linkSet_join {l : HtmlAttrs} (h : LinkSet l) : ∃ as : List Str, joinAttrs l = as.flatten ∧ ∀ a ∈ as, LinkAttr a := by
  refine ⟨(l.filter (fun a => a.1.all isValidAttrChar)).map attrText, ?_, ?_⟩
  · unfold joinAttrs; rw [List.flatMap_def]
  · intro a ha
    rw [List.mem_map] at ha
    obtain ⟨⟨k, v⟩, hm, rfl⟩ := ha
    rcases h k v (List.mem_filter.mp hm).1 with hk | hk
    · obtain ⟨d, body, h1, h2, h3, h4, h5, -⟩ := quoteattr_shape v
      unfold attrText
      dsimp only
      rw [h1]
      exact .own hk h2 h3 h4 h5
    · exact .left (left_attr hk.1 hk.2)

theorem linkSet_parse {U : Uni} {attrs : Str} {a : BAttrs} (h : BAttrs.parse U attrs none true = .ok a) : LinkSet a.html := by
  intro k v hk
  obtain ⟨c1, c2, c3⟩ := C21_restricted_attributes _ _ _ _ h k v hk
  have := battrs_names hk
  simp only [List.mem_cons] at this
  rcases this with rfl | rfl | this
  · exact absurd rfl c1
  · exact absurd rfl c2
  · exact .inr ⟨this, c3⟩

theorem tame_link {U : Uni} (hU : UniOk U) {l : HtmlAttrs} (h : LinkSet l) (t : Str) : TameLink (generateTag U t!"a" (some t) l) := by
  obtain ⟨as, h1, h2⟩ := linkSet_join h
  have h3 : (t!"a").all U.isAlnum = true := List.all_eq_true.mpr (hU.name (by decide))
  unfold generateTag
  rw [if_neg (by decide), if_neg (by rw [h3]; decide), h1]
  have := TameLink.mk (content := t) h2
  simpa using this

section
variable {C : Ctx}

theorem le_plain : Plain C (AllEvents C LinkEvent) where
  ret a := by intro w e he; simp [trace] at he
  fail x := by intro w e he; simp [trace] at he
  bind := allEvents_bind
  shelve v := by intro w e he; simp [shelveP, trace] at he; subst he; trivial
  cacheRef k v := by intro w e he; simp [cacheRefP, trace] at he; subst he; trivial
  getSt := by intro w e he; simp [getStP, trace] at he
  probe h h' u := by intro w e he; simp [probeP, trace] at he; subst he; trivial

theorem le_image (v : Str) : AllEvents C LinkEvent (shelveP v .image) := by
  intro w e he; simp [shelveP, trace] at he; subst he; trivial

theorem le_link {v : Str} (h : TameLink v) : AllEvents C LinkEvent (shelveP v .link) := by
  intro w e he; simp [shelveP, trace] at he; subst he; exact h

theorem le_fLink (hU : UniOk C.U) (hr : C.cfg.restricted = true) {spanF : Str → Prog Str} (hs : ∀ t, AllEvents C LinkEvent (spanF t))
    (him : C.cfg.noimage = false → ∀ t, AllEvents C LinkEvent (image C t)) (m : Mat) : AllEvents C LinkEvent (fLink C spanF m) := by
  have H := le_plain (C := C)
  unfold fLink
  dsimp only
  split
  · exact H.ret _
  refine H.bind (H.ofR _) (fun x => H.bind (H.unrestrictUrl _) (fun url2 => ?_))
  split
  · exact H.ret _
  refine H.bind H.getSt (fun st => ?_)
  split
  all_goals
    refine H.bind (by first | exact H.ret _ | (rename_i h; exact him (by simpa using h) _)) (fun text2 => H.bind (hs _) (fun text3 =>
      H.bind (H.shelveUrl _) (fun urlId => ?_)))
    unfold parseAttrs
    rw [hr]
    cases h2 : BAttrs.parse C.U (linkParts C (replaceStr t!"\n" C.cfg.brTag (m.grp 2))).1 none true with
    | error x => intro w e he; simp [Prog.ofR, trace_bind, trace, run] at he
    | ok ba =>
      have e : ∀ {β γ : Type} (x : γ) (f : γ → Prog β), (Prog.ofR (.ok x) >>= f) = f x := fun _ _ => rfl
      rw [e]
      have h3 : ∀ v, LinkSet (HtmlAttrs.insert t!"href" v ba.html) := fun v => linkSet_insert (by decide) (linkSet_parse h2)
      have last : ∀ a2, LinkSet a2 → AllEvents C LinkEvent (shelveP (generateTag C.U t!"a" (some (glyphs C text3)) (match C.cfg.rel with
          | some rel => HtmlAttrs.insert t!"rel" rel a2
          | none => a2)) .link) := by
        intro a2 h
        refine le_link (tame_link hU ?_ _)
        split
        · exact linkSet_insert (by decide) h
        · exact h
      split
      · rw [pure_bind]
        exact H.bind (last _ (h3 _)) (fun _ => H.ret _)
      · rw [LawfulMonad.bind_assoc]
        refine H.bind (H.shelve _) (fun tid => ?_)
        rw [pure_bind]
        exact H.bind (last _ (linkSet_insert (by decide) (h3 _))) (fun _ => H.ret _)

theorem le_closed (hU : UniOk C.U) (hr : C.cfg.restricted = true) : Closed C (AllEvents C LinkEvent) := by
  have H := le_plain (C := C)
  have sil : ∀ {α : Type} {p : Prog α}, (∀ w, trace C p w = []) → AllEvents C LinkEvent p := by
    intro α p h w e he; rw [h] at he; simp at he
  have inc : AllEvents C LinkEvent incLinkP := by intro w e he; simp [incLinkP, trace] at he; subst he; trivial
  have sa : ∀ f, AllEvents C LinkEvent (setAuxP f) := fun f => sil (fun _ => rfl)
  have sf : ∀ l i, AllEvents C LinkEvent (setFootnoteP l i) := fun l i => sil (fun _ => rfl)
  obtain ⟨n1, n2, n3, n4⟩ := H.notes inc sf sa
  refine { ret := H.ret, fail := H.fail, bind := H.bind, shelve := H.shelve,
           storeUrl := H.shelveUrl, storeTags := H.storeTags,
           image := fun hi => H.fImage le_image hi, link := le_fLink hU hr,
           incLink := inc, setAux := fun f _ => sa f, getSt := H.getSt, getPat := fun s => sil (fun _ => rfl),
           level := ?_, splitNotes := sa _, footnote := n1, noteRef := n2, ensureNote := n3, storeNote := n4 }
  intro body text hb
  refine H.bind (sil (fun _ => rfl)) (fun d => H.bind ?_ (fun t => H.bind (sil (fun _ => rfl)) (fun _ => H.ret _)))
  split
  · exact hb
  · exact H.ret _

end

/-- **C103.** In restricted mode, every link that is made of a text is without class and identifier, with a style only of
padding and alignment, and with attribute values that cannot be left, whatever the text and the other options.  The link is
meant as it is set aside, with placeholders for the address and the title; what is put in their place is not considered. -/
theorem C103_restricted_links (E : Env) (hU : UniOk E.U) (fuel : Nat) (cfg : Cfg) (text : Str) (w : World) (k v : Str)
    (h : .stored .link k v ∈ trace ⟨E, (Setter.restricted true).apply cfg, fuel⟩
      (parseP ⟨E, (Setter.restricted true).apply cfg, fuel⟩ text) w) : TameLink v :=
  (le_closed (C := ⟨E, (Setter.restricted true).apply cfg, fuel⟩) hU rfl).parseP text w _ h

/-- The class and the identifier are left out, the language and the title are kept. -/
theorem C103_restricted_links_ex : trace ⟨demoEnv, (Setter.restricted true).apply demoCfg, 100⟩
      (parseP ⟨demoEnv, (Setter.restricted true).apply demoCfg, 100⟩ t!"\"(b#c)[en]x(y)\":/z") {} =
    [.cached .url 0 1 t!"/z", .stored .text t!"textileRef:abc:2:shelve" t!"y",
     .stored .link t!"textileRef:abc:3:shelve"
       t!"<a href=\"textileRef:abc:1:url\" lang=\"en\" title=\"textileRef:abc:2:shelve\">x</a>"] := by
  decide +kernel

theorem tame_no_class_link (t : Str) : ¬ TameLink (t!"<a class=\"b\" " ++ t) := by
  intro h
  generalize hv : t!"<a class=\"b\" " ++ t = v at h
  cases h with
  | @mk as content has =>
    cases as with
    | nil => simp at hv
    | cons x l =>
      cases has x List.mem_cons_self with
      | left h =>
        obtain ⟨hk, -⟩ := h
        simp only [leftNames, List.mem_cons, List.not_mem_nil, or_false] at hk
        rcases hk with rfl | rfl | rfl | rfl | rfl | rfl | rfl <;> simp at hv
      | own hk =>
        simp only [List.mem_cons, List.not_mem_nil, or_false] at hk
        rcases hk with rfl | rfl | rfl <;> simp at hv

/-- Without restrictions, a link can have a class. -/
theorem C103_unrestricted : ¬ ∀ (E : Env) (_ : UniOk E.U) (fuel : Nat) (cfg : Cfg) (text : Str) (w : World) (k v : Str),
    .stored .link k v ∈ trace ⟨E, (Setter.restricted false).apply cfg, fuel⟩
      (parseP ⟨E, (Setter.restricted false).apply cfg, fuel⟩ text) w → TameLink v := by
  intro h
  refine tame_no_class_link t!"href=\"textileRef:abc:1:url\">x</a>"
    (h demoEnv UniOk.demo 100 demoCfg t!"\"(b)x\":/z" {} t!"textileRef:abc:2:shelve" _ ?_)
  decide +kernel

end Rustextile
