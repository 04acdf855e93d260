import Verif.ProgLemmas

/-!
# Properties of programs that follow from their elementary effects

`Closed C P` says that `P` holds of the elementary effects and is preserved by
sequencing.  Such a `P` holds of every function of the parser (`Closed.parseP`
and the lemmas before it), whatever the text.

* `level`: entering and leaving a level of inline markup only occur in pairs
  around a body (parser.rs:1543 and 1584).
* `footnote`, `noteRef`, `ensureNote`, `storeNote`, `splitNotes`: the functions
  that write footnotes and notes are taken as elementary; every other write
  leaves the notes alone (`KeepsNotes`).
* `storeUrl`, `storeTags`, `image`, `link`: the same for the functions that
  generate links, images and inline tags.  Image markup is only looked for when
  images are enabled.

`Basic C P` is the stronger requirement that `P` holds of every elementary effect;
a size probe (`probe`) only occurs when sizes were asked for and images are
enabled.
-/

namespace Rustextile

open Prog

theorem spanN_succ (C : Ctx) (n : Nat) (text : Str) : spanN C (n + 1) text =
    (spanEnterP >>= fun d =>
      (if d ≤ C.cfg.maxSpanDepth then multiReplaceWithOne C (fSpan C (spanN C n)) spanPatterns text
        else pure text) >>= fun t => spanLeaveP >>= fun _ => pure t) := by
  rw [spanN]
  congr 1
  funext d
  split <;> rfl

/-- An update that leaves the notes alone. -/
def KeepsNotes (f : Aux → Aux) : Prop :=
  ∀ a, (f a).notes = a.notes ∧ (f a).unrefNotes = a.unrefNotes ∧ (f a).noteIndex = a.noteIndex

structure Closed (C : Ctx) (P : {α : Type} → Prog α → Prop) : Prop where
  ret : ∀ {α : Type} (a : α), P (Prog.ret a)
  fail : ∀ {α : Type} (e : Err), P (Prog.fail e : Prog α)
  bind : ∀ {α β : Type} {p : Prog α} {f : α → Prog β}, P p → (∀ a, P (f a)) → P (p >>= f)
  shelve : ∀ v, P (shelveP v)
  storeUrl : ∀ u, P (shelveUrl C u)
  storeTags : ∀ a b, P (storeTags C a b)
  image : C.cfg.noimage = false → ∀ m, P (fImage C m)
  link : ∀ {spanF : Str → Prog Str}, (∀ t, P (spanF t)) →
    (C.cfg.noimage = false → ∀ t, P (Rustextile.image C t)) → ∀ m, P (fLink C spanF m)
  incLink : P incLinkP
  footnote : ∀ m, P (fFootnote C m)
  noteRef : ∀ m, P (fNoteRef C m)
  ensureNote : ∀ l, P (ensureNote C l)
  storeNote : ∀ l k a c, P (storeNote C l k a c)
  splitNotes : P (setAuxP splitNotes)
  setAux : ∀ f, KeepsNotes f → P (setAuxP f)
  getSt : P getStP
  getPat : ∀ s, P (getPatP s)
  level : ∀ {body : Prog Str} {text : Str}, P body →
    P (spanEnterP >>= fun d => (if d ≤ C.cfg.maxSpanDepth then body else pure text) >>= fun t =>
      spanLeaveP >>= fun _ => pure t)

namespace Closed

variable {C : Ctx} {P : {α : Type} → Prog α → Prop}

theorem pure (H : Closed C P) {α : Type} (a : α) : P (Pure.pure a : Prog α) := H.ret a

theorem ofR (H : Closed C P) {α : Type} (r : R α) : P (Prog.ofR r) := by
  cases r
  · exact H.fail _
  · exact H.ret _

/-- Walk through a program. -/
syntax "walk" term : tactic
macro_rules
  | `(tactic| walk $h) => `(tactic| repeat' (first
      | intro _
      | assumption
      | exact ($h).ret _ | exact ($h).pure _ | exact ($h).fail _ | exact ($h).ofR _
      | exact ($h).shelve _ | exact ($h).incLink
      | exact ($h).setAux _ (fun _ => ⟨rfl, rfl, rfl⟩) | exact ($h).getSt | exact ($h).getPat _
      | with_reducible apply ($h).bind
      | dsimp only
      | split))

theorem mapSegs (H : Closed C P) {f : Mat → Prog Str} (hf : ∀ m, P (f m)) : ∀ l, P (Rustextile.mapSegs f l)
  | [] => H.pure _
  | x :: t => by
    have ih := H.mapSegs hf t
    have := hf x
    unfold Rustextile.mapSegs
    walk H

theorem replaceP (H : Closed C P) {r : Re} {f : Mat → Prog Str} (hf : ∀ m, P (f m)) (text : Str) :
    P (Rustextile.replaceP C r f text) := by
  unfold Rustextile.replaceP Re.replaceAllM
  exact H.bind (H.mapSegs hf _) (fun _ => H.pure _)

theorem parseAttrs (H : Closed C P) (a : Str) (e : Option Str) : P (Rustextile.parseAttrs C a e) := H.ofR _

theorem fNoteList (H : Closed C P) (m : Mat) : P (Rustextile.fNoteList C m) := by
  unfold Rustextile.fNoteList
  walk H
  all_goals exact H.parseAttrs _ _

theorem placeNoteLists (H : Closed C P) (t : Str) : P (Rustextile.placeNoteLists C t) := by
  unfold Rustextile.placeNoteLists
  exact H.bind H.splitNotes (fun _ => H.replaceP H.fNoteList _)

theorem retrieveUrls (H : Closed C P) (t : Str) : P (Rustextile.retrieveUrls C t) := by
  unfold Rustextile.retrieveUrls; walk H

theorem retrieveTags (H : Closed C P) (t : Str) : P (Rustextile.retrieveTags C t) := by
  unfold Rustextile.retrieveTags; walk H

theorem noTextile (H : Closed C P) (t : Str) : P (Rustextile.noTextile C t) := by
  have hf : ∀ m, P (fTextile m) := by intro m; unfold fTextile; walk H
  unfold Rustextile.noTextile
  exact H.bind (H.replaceP hf _) (fun _ => H.replaceP hf _)

theorem code (H : Closed C P) (t : Str) : P (Rustextile.code C t) := by
  have hf : ∀ m, P (fCode m) := by intro m; unfold fCode; walk H
  have hg : ∀ m, P (fPre m) := by intro m; unfold fPre; walk H
  unfold Rustextile.code
  exact H.bind (H.replaceP hf _) (fun _ => H.bind (H.replaceP hf _) (fun _ => H.replaceP hg _))

theorem getHtmlComments (H : Closed C P) (t : Str) : P (Rustextile.getHtmlComments C t) := by
  unfold Rustextile.getHtmlComments
  exact H.replaceP (by walk H) _

theorem unrestrictUrl (H : Closed C P) (u : Str) : P (Rustextile.unrestrictUrl C u) := by
  unfold Rustextile.unrestrictUrl; walk H

theorem getRefs (H : Closed C P) (t : Str) : P (Rustextile.getRefs C t) := by
  unfold Rustextile.getRefs
  refine H.replaceP ?_ _
  walk H
  all_goals exact H.unrestrictUrl _

theorem images (H : Closed C P) (hi : C.cfg.noimage = false) (t : Str) : P (Rustextile.image C t) :=
  H.replaceP (H.image hi) _

theorem linkLoop (H : Closed C P) {spanF : Str → Prog Str} (hs : ∀ t, P (spanF t)) (pat : Re) (n : Str) :
    ∀ f t, P (Rustextile.linkLoop C spanF pat n f t)
  | 0, t => H.fail _
  | f + 1, t => by
    have ih := H.linkLoop hs pat n f
    unfold Rustextile.linkLoop
    split
    · refine H.bind (H.replaceP (H.link hs H.images) _) ?_
      intro a; split
      · exact H.pure _
      · exact ih _
    · exact H.pure _

theorem links (H : Closed C P) {spanF : Str → Prog Str} (hs : ∀ t, P (spanF t)) (t : Str) :
    P (Rustextile.links C spanF t) := by
  unfold Rustextile.links Rustextile.replaceLinks
  exact H.bind (H.ofR _) (fun _ => H.bind (H.getPat _) (fun _ => H.linkLoop hs _ _ _ _))

theorem fSpan (H : Closed C P) {rec : Str → Prog Str} (hr : ∀ t, P (rec t)) (m : Mat) :
    P (Rustextile.fSpan C rec m) := by
  unfold Rustextile.fSpan
  walk H
  all_goals first | exact H.parseAttrs _ _ | exact hr _ | exact H.storeTags _ _

theorem multiReplaceWithOne (H : Closed C P) {f : Mat → Prog Str} (hf : ∀ m, P (f m)) :
    ∀ l t, P (Rustextile.multiReplaceWithOne C f l t)
  | [], _ => H.pure _
  | _ :: l, _ => H.bind (H.replaceP hf _) (fun _ => H.multiReplaceWithOne hf l _)

theorem spanN (H : Closed C P) : ∀ n t, P (Rustextile.spanN C n t)
  | 0, t => H.fail _
  | n + 1, t => by
    have ih := H.spanN n
    rw [Rustextile.spanN_succ]
    exact H.level (H.multiReplaceWithOne (H.fSpan ih) _ _)

theorem span (H : Closed C P) (t : Str) : P (Rustextile.span C t) := H.spanN _ _

theorem doTagBr (H : Closed C P) (tag t : Str) : P (Rustextile.doTagBr C tag t) := by
  unfold Rustextile.doTagBr
  refine H.bind (H.getPat _) (fun _ => H.replaceP ?_ _)
  walk H

theorem rcLine (H : Closed C P) {g : Str → Prog Str} (hg : ∀ t, P (g t)) (out : List Str) (l : Str) :
    P (Rustextile.rcLine C g out l) := by
  unfold Rustextile.rcLine
  walk H
  all_goals first | exact H.parseAttrs _ _ | exact hg _

theorem rcLines (H : Closed C P) {g : Str → Prog Str} (hg : ∀ t, P (g t)) :
    ∀ l out, P (Rustextile.rcLines C g out l)
  | [], out => by unfold Rustextile.rcLines; exact H.pure _
  | x :: l, out => by
    unfold Rustextile.rcLines
    exact H.bind (H.rcLine hg _ _) (fun _ => H.rcLines hg l _)

theorem redclothList (H : Closed C P) {g : Str → Prog Str} (hg : ∀ t, P (g t)) (t : Str) :
    P (Rustextile.redclothList C g t) := by
  unfold Rustextile.redclothList
  refine H.replaceP ?_ _
  intro m
  unfold Rustextile.fRcList
  exact H.bind (H.rcLines hg _ _) (fun _ => H.pure _)

theorem listLoop (H : Closed C P) : ∀ l prev ls, P (Rustextile.listLoop C prev ls l)
  | [], prev, ls => by unfold Rustextile.listLoop; exact H.pure _
  | x :: l, prev, ls => by
    have ih := H.listLoop l
    unfold Rustextile.listLoop
    walk H
    all_goals first | exact H.parseAttrs _ _ | exact ih _ _

theorem textileLists (H : Closed C P) (t : Str) : P (Rustextile.textileLists C t) := by
  unfold Rustextile.textileLists
  refine H.replaceP ?_ _
  intro m
  unfold Rustextile.fTextileList
  walk H
  all_goals first | exact H.listLoop _ _ _ | exact H.doTagBr _ _

theorem tableCell (H : Closed C P) {g : Str → Prog Str} (hg : ∀ t, P (g t)) (c : Str) :
    P (Rustextile.tableCell C g c) := by
  unfold Rustextile.tableCell
  walk H
  all_goals first
    | exact H.parseAttrs _ _ | exact H.redclothList hg _ | exact H.textileLists _ | exact H.doTagBr _ _

theorem tableCells (H : Closed C P) {g : Str → Prog Str} (hg : ∀ t, P (g t)) :
    ∀ l, P (Rustextile.tableCells C g l)
  | [] => H.pure _
  | x :: l => by
    have ih := H.tableCells hg l
    unfold Rustextile.tableCells
    walk H
    exact H.tableCell hg _

theorem colgroupCols (H : Closed C P) : ∀ l b, P (Rustextile.colgroupCols C b l)
  | [], b => by unfold Rustextile.colgroupCols; exact H.pure _
  | x :: l, b => by
    have ih := H.colgroupCols l
    unfold Rustextile.colgroupCols
    walk H
    all_goals first | exact H.parseAttrs _ _ | exact ih _

theorem tableCaption (H : Closed C P) (s : TableSt) (i : Nat) (r : Str) : P (Rustextile.tableCaption C s i r) := by
  unfold Rustextile.tableCaption Rustextile.processCaption
  walk H

theorem tableColgroup (H : Closed C P) (s : TableSt) (r : Str) : P (Rustextile.tableColgroup C s r) := by
  unfold Rustextile.tableColgroup
  walk H
  exact H.colgroupCols _ _

theorem tableGroup (H : Closed C P) (s : TableSt) (r : Str) : P (Rustextile.tableGroup C s r) := by
  unfold Rustextile.tableGroup
  walk H
  all_goals exact H.parseAttrs _ _

theorem tableRow (H : Closed C P) {g : Str → Prog Str} (hg : ∀ t, P (g t)) (s : TableSt) (r : Str) :
    P (Rustextile.tableRow C g s r) := by
  unfold Rustextile.tableRow
  walk H
  all_goals first | exact H.parseAttrs _ _ | exact H.tableCells hg _

theorem tableRows (H : Closed C P) {g : Str → Prog Str} (hg : ∀ t, P (g t)) :
    ∀ l i s, P (Rustextile.tableRows C g i s l)
  | [], i, s => by unfold Rustextile.tableRows; exact H.pure _
  | x :: l, i, s => by
    have ih := H.tableRows hg l
    unfold Rustextile.tableRows
    walk H
    all_goals first
      | exact H.tableCaption _ _ _ | exact ih _ _ | exact H.tableColgroup _ _ | exact H.tableGroup _ _
      | exact H.tableRow hg _ _

theorem table (H : Closed C P) {g : Str → Prog Str} (hg : ∀ t, P (g t)) (t : Str) : P (Rustextile.table C g t) := by
  unfold Rustextile.table Rustextile.processTable
  walk H
  all_goals first | exact H.parseAttrs _ _ | exact H.tableRows hg _ _ _

theorem footnoteRef (H : Closed C P) (t : Str) : P (Rustextile.footnoteRef C t) := by
  unfold Rustextile.footnoteRef
  exact H.replaceP H.footnote _

theorem noteRefs (H : Closed C P) (t : Str) : P (Rustextile.noteRef C t) := by
  unfold Rustextile.noteRef
  exact H.replaceP H.noteRef _

theorem glyphQuotedQuote (H : Closed C P) (t : Str) : P (Rustextile.glyphQuotedQuote C t) := by
  unfold Rustextile.glyphQuotedQuote
  refine H.replaceP ?_ _
  intro m
  unfold Rustextile.fQuotedQuote
  walk H

theorem unlessB (H : Closed C P) {b : Bool} {f : Str → Prog Str} (hf : b = false → ∀ t, P (f t)) (t : Str) :
    P (Rustextile.unlessB b f t) := by
  unfold Rustextile.unlessB
  split
  · exact H.pure _
  · rename_i h; exact hf (by simpa using h) t

theorem graf (H : Closed C P) : ∀ n t, P (Rustextile.graf C n t)
  | 0, t => H.fail _
  | n + 1, t => by
    have ih := H.graf n
    unfold Rustextile.graf
    refine H.bind (H.unlessB (fun _ => H.noTextile) _) fun t => ?_
    refine H.bind (H.unlessB (fun _ => H.code) _) fun t => ?_
    refine H.bind (H.getHtmlComments _) fun t => ?_
    refine H.bind (H.getRefs _) fun t => ?_
    refine H.bind (H.glyphQuotedQuote _) fun t => ?_
    refine H.bind (H.links H.span _) fun t => ?_
    refine H.bind (H.unlessB (fun h => H.images h) _) fun t => ?_
    refine H.bind (H.unlessB (fun _ => H.table ih) _) fun t => ?_
    refine H.bind (H.unlessB (fun _ => H.redclothList ih) _) fun t => ?_
    refine H.bind (H.unlessB (fun _ => H.textileLists) _) fun t => ?_
    refine H.bind (H.span _) fun t => ?_
    refine H.bind (H.footnoteRef _) fun t => ?_
    refine H.bind (H.noteRefs _) fun t => ?_
    exact H.pure _

theorem parseNoteDefs (H : Closed C P) {g : Str → Prog Str} (hg : ∀ t, P (g t)) (m : Mat) :
    P (Rustextile.parseNoteDefs C g m) := by
  unfold Rustextile.parseNoteDefs
  exact H.bind (H.ensureNote _) (fun _ => H.bind (hg _) (fun _ => H.storeNote _ _ _ _))

theorem footnoteBlock (H : Closed C P) (t a : Str) (b : BAttrs) (c : Str) :
    P (Rustextile.footnoteBlock C t a b c) := by
  unfold Rustextile.footnoteBlock
  walk H

theorem blockTagsOf (H : Closed C P) (t : Str) (o a : BAttrs) (ci : Option Str) (c : Str) :
    P (Rustextile.blockTagsOf C t o a ci c) := by
  unfold Rustextile.blockTagsOf
  walk H
  all_goals first | exact H.unrestrictUrl _ | exact H.storeUrl _

theorem blockNew (H : Closed C P) {g : Str → Prog Str} (hg : ∀ t, P (g t)) (t a : Str) (ci : Option Str) (c : Str) :
    P (Rustextile.blockNew C g t a ci c) := by
  unfold Rustextile.blockNew
  walk H
  all_goals first
    | exact H.parseAttrs _ _ | exact H.replaceP (H.parseNoteDefs hg) _ | exact H.footnoteBlock _ _ _ _
    | exact H.blockTagsOf _ _ _ _ _ | exact hg _

theorem blockBody (H : Closed C P) {g : Str → Prog Str} (hg : ∀ t, P (g t)) (s : BlkSt) (b : Str) :
    P (Rustextile.blockBody C g s b) := by
  unfold Rustextile.blockBody
  walk H
  all_goals first | exact H.blockNew hg _ _ _ _ | exact hg _

theorem blockLoop (H : Closed C P) {g : Str → Prog Str} (hg : ∀ t, P (g t)) :
    ∀ l s, P (Rustextile.blockLoop C g s l)
  | [], s => by unfold Rustextile.blockLoop; exact H.pure _
  | x :: l, s => by
    have ih := H.blockLoop hg l
    unfold Rustextile.blockLoop Rustextile.blockStep
    walk H
    all_goals first | exact H.blockBody hg _ _ | exact ih _

theorem block (H : Closed C P) (t : Str) : P (Rustextile.block C t) := by
  unfold Rustextile.block
  exact H.bind (H.blockLoop (H.graf _) _ _) (fun _ => H.pure _)

theorem parseBody (H : Closed C P) (t : Str) : P (Rustextile.parseBody C t) := by
  unfold Rustextile.parseBody
  walk H
  all_goals first
    | exact H.block _ | exact H.placeNoteLists _ | exact H.glyphQuotedQuote _ | exact H.span _
    | exact H.retrieveTags _ | exact H.retrieveUrls _

theorem parseP (H : Closed C P) (t : Str) : P (Rustextile.parseP C t) := by
  unfold Rustextile.parseP
  split
  · exact H.pure _
  · exact H.bind (H.parseBody _) (fun _ => H.pure _)

end Closed

/-- `P` is preserved by sequencing and holds of the elementary effects that occur in
links and images, except for storing the generated tag itself. -/
structure Plain (C : Ctx) (P : {α : Type} → Prog α → Prop) : Prop where
  ret : ∀ {α : Type} (a : α), P (Prog.ret a)
  fail : ∀ {α : Type} (e : Err), P (Prog.fail e : Prog α)
  bind : ∀ {α β : Type} {p : Prog α} {f : α → Prog β}, P p → (∀ a, P (f a)) → P (p >>= f)
  shelve : ∀ v, P (shelveP v)
  cacheRef : ∀ k v, P (cacheRefP k v)
  getSt : P getStP
  probe : C.cfg.noimage = false → C.cfg.getSizes = true → ∀ u, P (probeP u)

/-- `P` holds of all elementary effects and is preserved by sequencing. -/
structure Basic (C : Ctx) (P : {α : Type} → Prog α → Prop) : Prop extends Plain C P where
  shelveLink : ∀ v, P (shelveP v .link)
  shelveImage : C.cfg.noimage = false → ∀ v, P (shelveP v .image)
  incLink : P incLinkP
  setFootnote : ∀ l i, P (setFootnoteP l i)
  setAux : ∀ f, P (setAuxP f)
  getPat : ∀ s, P (getPatP s)
  level : ∀ {body : Prog Str} {text : Str}, P body →
    P (spanEnterP >>= fun d => (if d ≤ C.cfg.maxSpanDepth then body else pure text) >>= fun t =>
      spanLeaveP >>= fun _ => pure t)

namespace Plain

variable {C : Ctx} {P : {α : Type} → Prog α → Prop}

theorem ofR (H : Plain C P) {α : Type} (r : R α) : P (Prog.ofR r) := by
  cases r
  · exact H.fail _
  · exact H.ret _

/-- Walk through a program. -/
syntax "walkb" term : tactic
macro_rules
  | `(tactic| walkb $h) => `(tactic| repeat' (first
      | intro _
      | assumption
      | exact ($h).ret _ | exact ($h).fail _ | exact ($h).ofR _
      | exact ($h).shelve _ | exact ($h).cacheRef _ _ | exact ($h).incLink
      | exact ($h).setFootnote _ _ | exact ($h).setAux _ | exact ($h).getSt | exact ($h).getPat _
      | with_reducible apply ($h).bind
      | dsimp only
      | split))

theorem shelveUrl (H : Plain C P) (u : UrlString) : P (Rustextile.shelveUrl C u) := by
  unfold Rustextile.shelveUrl; walkb H

theorem unrestrictUrl (H : Plain C P) (u : Str) : P (Rustextile.unrestrictUrl C u) := by
  unfold Rustextile.unrestrictUrl; walkb H

theorem imageAttrs (H : Plain C P) (m : Mat) : P (Rustextile.imageAttrs C m) := by
  unfold Rustextile.imageAttrs
  walkb H

theorem imageSizeAttrs (H : Plain C P) (hi : C.cfg.noimage = false) (u : Str) (a : HtmlAttrs) :
    P (Rustextile.imageSizeAttrs C u a) := by
  unfold Rustextile.imageSizeAttrs
  split
  · rename_i h
    refine H.bind (H.probe hi ?_ _) ?_
    · simp at h; exact h.2
    · walkb H
  · exact H.ret _

theorem fImage (H : Plain C P) (hv : ∀ v, P (shelveP v .image)) (hi : C.cfg.noimage = false) (m : Mat) :
    P (Rustextile.fImage C m) := by
  unfold Rustextile.fImage
  walkb H
  all_goals first
    | exact hv _ | exact H.imageAttrs _ | exact H.imageSizeAttrs hi _ _ | exact H.unrestrictUrl _ | exact H.shelveUrl _

theorem fLink (H : Plain C P) (hv : ∀ v, P (shelveP v .link)) {spanF : Str → Prog Str} (hs : ∀ t, P (spanF t))
    (him : C.cfg.noimage = false → ∀ t, P (Rustextile.image C t)) (m : Mat) :
    P (Rustextile.fLink C spanF m) := by
  unfold Rustextile.fLink
  walkb H
  all_goals first
    | exact hv _ | exact H.unrestrictUrl _ | exact H.shelveUrl _ | exact H.ofR _ | exact hs _
    | (rename_i h; exact him (by simpa using h) _)

theorem storeTags (H : Plain C P) (a b : Str) : P (Rustextile.storeTags C a b) := by
  unfold Rustextile.storeTags; walkb H

end Plain

theorem Plain.notes {C : Ctx} {P : {α : Type} → Prog α → Prop} (H : Plain C P) (incLink : P incLinkP)
    (setFootnote : ∀ l i, P (setFootnoteP l i)) (setAux : ∀ f, P (setAuxP f)) :
    (∀ m, P (Rustextile.fFootnote C m)) ∧ (∀ m, P (Rustextile.fNoteRef C m)) ∧
    (∀ l, P (Rustextile.ensureNote C l)) ∧ ∀ l k a c, P (Rustextile.storeNote C l k a c) := by
  have ofR : ∀ {α : Type} (r : R α), P (Prog.ofR r) := fun r => H.ofR r
  refine ⟨?_, ?_, ?_, ?_⟩
  all_goals
    intros
    first
      | unfold Rustextile.fFootnote | unfold Rustextile.fNoteRef Rustextile.noteSeq
      | unfold Rustextile.ensureNote | unfold Rustextile.storeNote
    repeat' (first
      | intro _
      | assumption
      | exact H.ret _ | exact H.fail _ | exact ofR _
      | exact H.shelve _ | exact H.cacheRef _ _ | exact incLink
      | exact setFootnote _ _ | exact setAux _ | exact H.getSt
      | with_reducible apply H.bind
      | dsimp only
      | split)

theorem Basic.closed {C : Ctx} {P : {α : Type} → Prog α → Prop} (H : Basic C P) : Closed C P := by
  obtain ⟨h1, h2, h3, h4⟩ := H.toPlain.notes H.incLink H.setFootnote H.setAux
  exact { ret := H.ret, fail := H.fail, bind := H.bind, shelve := H.shelve,
          storeUrl := H.toPlain.shelveUrl, storeTags := H.toPlain.storeTags,
          image := fun hi => H.toPlain.fImage (H.shelveImage hi) hi, link := H.toPlain.fLink H.shelveLink,
          incLink := H.incLink, setAux := fun f _ => H.setAux f, getSt := H.getSt, getPat := H.getPat,
          level := H.level, splitNotes := H.setAux _, footnote := h1, noteRef := h2,
          ensureNote := h3, storeNote := h4 }

end Rustextile
