import Verif.Effects

/-!
# Properties of all runs, with the tags of inline markup

The same induction over the program as in `Verif.Effects` (`Closed`), for properties that do
not hold of storing arbitrary tags but only of storing those that inline markup makes
(`fSpan`): `spans` takes the place of `storeTags`.
-/

namespace Rustextile

open Prog

/-- `P` is preserved by sequencing and holds of the effects of the parser. -/
structure Guided (C : Ctx) (P : {α : Type} → Prog α → Prop) : Prop where
  ret : ∀ {α : Type} (a : α), P (Prog.ret a)
  fail : ∀ {α : Type} (e : Err), P (Prog.fail e : Prog α)
  bind : ∀ {α β : Type} {p : Prog α} {f : α → Prog β}, P p → (∀ a, P (f a)) → P (p >>= f)
  shelve : ∀ v, P (shelveP v)
  storeUrl : ∀ u, P (shelveUrl C u)
  spans : ∀ {rec : Str → Prog Str}, (∀ t, P (rec t)) → ∀ m, P (fSpan C rec m)
  image : C.cfg.noimage = false → ∀ m, P (fImage C m)
  link : ∀ {spanF : Str → Prog Str}, (∀ t, P (spanF t)) →
    (C.cfg.noimage = false → ∀ t, P (Rustextile.image C t)) → ∀ m, P (fLink C spanF m)
  incLink : P incLinkP
  footnote : ∀ m, P (fFootnote C m)
  noteRef : ∀ m, P (fNoteRef C m)
  ensureNote : ∀ l, P (ensureNote C l)
  storeNote : ∀ l k a c, P (storeNote C l k a c)
  splitNotes : P (setAuxP splitNotes)
  setAux : ∀ f, KeepsNotes f → P (setAuxP f)
  getSt : P getStP
  getPat : ∀ s, P (getPatP s)
  level : ∀ {body : Prog Str} {text : Str}, P body →
    P (spanEnterP >>= fun d => (if d ≤ C.cfg.maxSpanDepth then body else pure text) >>= fun t =>
      spanLeaveP >>= fun _ => pure t)

namespace Guided

variable {C : Ctx} {P : {α : Type} → Prog α → Prop}

theorem pure (H : Guided C P) {α : Type} (a : α) : P (Pure.pure a : Prog α) := H.ret a

theorem ofR (H : Guided C P) {α : Type} (r : R α) : P (Prog.ofR r) := by
  cases r
  · exact H.fail _
  · exact H.ret _

/-- Walk through a program. -/
syntax "walkg" term : tactic
macro_rules
  | `(tactic| walkg $h) => `(tactic| repeat' (first
      | intro _
      | assumption
      | exact ($h).ret _ | exact ($h).pure _ | exact ($h).fail _ | exact ($h).ofR _
      | exact ($h).shelve _ | exact ($h).incLink
      | exact ($h).setAux _ (fun _ => ⟨rfl, rfl, rfl⟩) | exact ($h).getSt | exact ($h).getPat _
      | with_reducible apply ($h).bind
      | dsimp only
      | split))

theorem mapSegs (H : Guided C P) {f : Mat → Prog Str} (hf : ∀ m, P (f m)) : ∀ l, P (Rustextile.mapSegs f l)
  | [] => H.pure _
  | x :: t => by
    have ih := H.mapSegs hf t
    have := hf x
    unfold Rustextile.mapSegs
    walkg H

theorem replaceP (H : Guided C P) {r : Re} {f : Mat → Prog Str} (hf : ∀ m, P (f m)) (text : Str) :
    P (Rustextile.replaceP C r f text) := by
  unfold Rustextile.replaceP Re.replaceAllM
  exact H.bind (H.mapSegs hf _) (fun _ => H.pure _)

theorem parseAttrs (H : Guided C P) (a : Str) (e : Option Str) : P (Rustextile.parseAttrs C a e) := H.ofR _

theorem fNoteList (H : Guided C P) (m : Mat) : P (Rustextile.fNoteList C m) := by
  unfold Rustextile.fNoteList
  walkg H
  all_goals exact H.parseAttrs _ _

theorem placeNoteLists (H : Guided C P) (t : Str) : P (Rustextile.placeNoteLists C t) := by
  unfold Rustextile.placeNoteLists
  exact H.bind H.splitNotes (fun _ => H.replaceP H.fNoteList _)

theorem retrieveUrls (H : Guided C P) (t : Str) : P (Rustextile.retrieveUrls C t) := by
  unfold Rustextile.retrieveUrls; walkg H

theorem retrieveTags (H : Guided C P) (t : Str) : P (Rustextile.retrieveTags C t) := by
  unfold Rustextile.retrieveTags; walkg H

theorem noTextile (H : Guided C P) (t : Str) : P (Rustextile.noTextile C t) := by
  have hf : ∀ m, P (fTextile m) := by intro m; unfold fTextile; walkg H
  unfold Rustextile.noTextile
  exact H.bind (H.replaceP hf _) (fun _ => H.replaceP hf _)

theorem code (H : Guided C P) (t : Str) : P (Rustextile.code C t) := by
  have hf : ∀ m, P (fCode m) := by intro m; unfold fCode; walkg H
  have hg : ∀ m, P (fPre m) := by intro m; unfold fPre; walkg H
  unfold Rustextile.code
  exact H.bind (H.replaceP hf _) (fun _ => H.bind (H.replaceP hf _) (fun _ => H.replaceP hg _))

theorem getHtmlComments (H : Guided C P) (t : Str) : P (Rustextile.getHtmlComments C t) := by
  unfold Rustextile.getHtmlComments
  exact H.replaceP (by walkg H) _

theorem unrestrictUrl (H : Guided C P) (u : Str) : P (Rustextile.unrestrictUrl C u) := by
  unfold Rustextile.unrestrictUrl; walkg H

theorem getRefs (H : Guided C P) (t : Str) : P (Rustextile.getRefs C t) := by
  unfold Rustextile.getRefs
  refine H.replaceP ?_ _
  walkg H
  all_goals exact H.unrestrictUrl _

theorem images (H : Guided C P) (hi : C.cfg.noimage = false) (t : Str) : P (Rustextile.image C t) :=
  H.replaceP (H.image hi) _

theorem linkLoop (H : Guided C P) {spanF : Str → Prog Str} (hs : ∀ t, P (spanF t)) (pat : Re) (n : Str) :
    ∀ f t, P (Rustextile.linkLoop C spanF pat n f t)
  | 0, t => H.fail _
  | f + 1, t => by
    have ih := H.linkLoop hs pat n f
    unfold Rustextile.linkLoop
    split
    · refine H.bind (H.replaceP (H.link hs H.images) _) ?_
      intro a; split
      · exact H.pure _
      · exact ih _
    · exact H.pure _

theorem links (H : Guided C P) {spanF : Str → Prog Str} (hs : ∀ t, P (spanF t)) (t : Str) :
    P (Rustextile.links C spanF t) := by
  unfold Rustextile.links Rustextile.replaceLinks
  exact H.bind (H.ofR _) (fun _ => H.bind (H.getPat _) (fun _ => H.linkLoop hs _ _ _ _))

theorem multiReplaceWithOne (H : Guided C P) {f : Mat → Prog Str} (hf : ∀ m, P (f m)) :
    ∀ l t, P (Rustextile.multiReplaceWithOne C f l t)
  | [], _ => H.pure _
  | _ :: l, _ => H.bind (H.replaceP hf _) (fun _ => H.multiReplaceWithOne hf l _)

theorem spanN (H : Guided C P) : ∀ n t, P (Rustextile.spanN C n t)
  | 0, t => H.fail _
  | n + 1, t => by
    have ih := H.spanN n
    rw [Rustextile.spanN_succ]
    exact H.level (H.multiReplaceWithOne (H.spans ih) _ _)

theorem span (H : Guided C P) (t : Str) : P (Rustextile.span C t) := H.spanN _ _

theorem doTagBr (H : Guided C P) (tag t : Str) : P (Rustextile.doTagBr C tag t) := by
  unfold Rustextile.doTagBr
  refine H.bind (H.getPat _) (fun _ => H.replaceP ?_ _)
  walkg H

theorem rcLine (H : Guided C P) {g : Str → Prog Str} (hg : ∀ t, P (g t)) (out : List Str) (l : Str) :
    P (Rustextile.rcLine C g out l) := by
  unfold Rustextile.rcLine
  walkg H
  all_goals first | exact H.parseAttrs _ _ | exact hg _

theorem rcLines (H : Guided C P) {g : Str → Prog Str} (hg : ∀ t, P (g t)) :
    ∀ l out, P (Rustextile.rcLines C g out l)
  | [], out => by unfold Rustextile.rcLines; exact H.pure _
  | x :: l, out => by
    unfold Rustextile.rcLines
    exact H.bind (H.rcLine hg _ _) (fun _ => H.rcLines hg l _)

theorem redclothList (H : Guided C P) {g : Str → Prog Str} (hg : ∀ t, P (g t)) (t : Str) :
    P (Rustextile.redclothList C g t) := by
  unfold Rustextile.redclothList
  refine H.replaceP ?_ _
  intro m
  unfold Rustextile.fRcList
  exact H.bind (H.rcLines hg _ _) (fun _ => H.pure _)

theorem listLoop (H : Guided C P) : ∀ l prev ls, P (Rustextile.listLoop C prev ls l)
  | [], prev, ls => by unfold Rustextile.listLoop; exact H.pure _
  | x :: l, prev, ls => by
    have ih := H.listLoop l
    unfold Rustextile.listLoop
    walkg H
    all_goals first | exact H.parseAttrs _ _ | exact ih _ _

theorem textileLists (H : Guided C P) (t : Str) : P (Rustextile.textileLists C t) := by
  unfold Rustextile.textileLists
  refine H.replaceP ?_ _
  intro m
  unfold Rustextile.fTextileList
  walkg H
  all_goals first | exact H.listLoop _ _ _ | exact H.doTagBr _ _

theorem tableCell (H : Guided C P) {g : Str → Prog Str} (hg : ∀ t, P (g t)) (c : Str) :
    P (Rustextile.tableCell C g c) := by
  unfold Rustextile.tableCell
  walkg H
  all_goals first
    | exact H.parseAttrs _ _ | exact H.redclothList hg _ | exact H.textileLists _ | exact H.doTagBr _ _

theorem tableCells (H : Guided C P) {g : Str → Prog Str} (hg : ∀ t, P (g t)) :
    ∀ l, P (Rustextile.tableCells C g l)
  | [] => H.pure _
  | x :: l => by
    have ih := H.tableCells hg l
    unfold Rustextile.tableCells
    walkg H
    exact H.tableCell hg _

theorem colgroupCols (H : Guided C P) : ∀ l b, P (Rustextile.colgroupCols C b l)
  | [], b => by unfold Rustextile.colgroupCols; exact H.pure _
  | x :: l, b => by
    have ih := H.colgroupCols l
    unfold Rustextile.colgroupCols
    walkg H
    all_goals first | exact H.parseAttrs _ _ | exact ih _

theorem tableCaption (H : Guided C P) (s : TableSt) (i : Nat) (r : Str) : P (Rustextile.tableCaption C s i r) := by
  unfold Rustextile.tableCaption Rustextile.processCaption
  walkg H

theorem tableColgroup (H : Guided C P) (s : TableSt) (r : Str) : P (Rustextile.tableColgroup C s r) := by
  unfold Rustextile.tableColgroup
  walkg H
  exact H.colgroupCols _ _

theorem tableGroup (H : Guided C P) (s : TableSt) (r : Str) : P (Rustextile.tableGroup C s r) := by
  unfold Rustextile.tableGroup
  walkg H
  all_goals exact H.parseAttrs _ _

theorem tableRow (H : Guided C P) {g : Str → Prog Str} (hg : ∀ t, P (g t)) (s : TableSt) (r : Str) :
    P (Rustextile.tableRow C g s r) := by
  unfold Rustextile.tableRow
  walkg H
  all_goals first | exact H.parseAttrs _ _ | exact H.tableCells hg _

theorem tableRows (H : Guided C P) {g : Str → Prog Str} (hg : ∀ t, P (g t)) :
    ∀ l i s, P (Rustextile.tableRows C g i s l)
  | [], i, s => by unfold Rustextile.tableRows; exact H.pure _
  | x :: l, i, s => by
    have ih := H.tableRows hg l
    unfold Rustextile.tableRows
    walkg H
    all_goals first
      | exact H.tableCaption _ _ _ | exact ih _ _ | exact H.tableColgroup _ _ | exact H.tableGroup _ _
      | exact H.tableRow hg _ _

theorem table (H : Guided C P) {g : Str → Prog Str} (hg : ∀ t, P (g t)) (t : Str) : P (Rustextile.table C g t) := by
  unfold Rustextile.table Rustextile.processTable
  walkg H
  all_goals first | exact H.parseAttrs _ _ | exact H.tableRows hg _ _ _

theorem footnoteRef (H : Guided C P) (t : Str) : P (Rustextile.footnoteRef C t) := by
  unfold Rustextile.footnoteRef
  exact H.replaceP H.footnote _

theorem noteRefs (H : Guided C P) (t : Str) : P (Rustextile.noteRef C t) := by
  unfold Rustextile.noteRef
  exact H.replaceP H.noteRef _

theorem glyphQuotedQuote (H : Guided C P) (t : Str) : P (Rustextile.glyphQuotedQuote C t) := by
  unfold Rustextile.glyphQuotedQuote
  refine H.replaceP ?_ _
  intro m
  unfold Rustextile.fQuotedQuote
  walkg H

theorem unlessB (H : Guided C P) {b : Bool} {f : Str → Prog Str} (hf : b = false → ∀ t, P (f t)) (t : Str) :
    P (Rustextile.unlessB b f t) := by
  unfold Rustextile.unlessB
  split
  · exact H.pure _
  · rename_i h; exact hf (by simpa using h) t

theorem graf (H : Guided C P) : ∀ n t, P (Rustextile.graf C n t)
  | 0, t => H.fail _
  | n + 1, t => by
    have ih := H.graf n
    unfold Rustextile.graf
    refine H.bind (H.unlessB (fun _ => H.noTextile) _) fun t => ?_
    refine H.bind (H.unlessB (fun _ => H.code) _) fun t => ?_
    refine H.bind (H.getHtmlComments _) fun t => ?_
    refine H.bind (H.getRefs _) fun t => ?_
    refine H.bind (H.glyphQuotedQuote _) fun t => ?_
    refine H.bind (H.links H.span _) fun t => ?_
    refine H.bind (H.unlessB (fun h => H.images h) _) fun t => ?_
    refine H.bind (H.unlessB (fun _ => H.table ih) _) fun t => ?_
    refine H.bind (H.unlessB (fun _ => H.redclothList ih) _) fun t => ?_
    refine H.bind (H.unlessB (fun _ => H.textileLists) _) fun t => ?_
    refine H.bind (H.span _) fun t => ?_
    refine H.bind (H.footnoteRef _) fun t => ?_
    refine H.bind (H.noteRefs _) fun t => ?_
    exact H.pure _

theorem parseNoteDefs (H : Guided C P) {g : Str → Prog Str} (hg : ∀ t, P (g t)) (m : Mat) :
    P (Rustextile.parseNoteDefs C g m) := by
  unfold Rustextile.parseNoteDefs
  exact H.bind (H.ensureNote _) (fun _ => H.bind (hg _) (fun _ => H.storeNote _ _ _ _))

theorem footnoteBlock (H : Guided C P) (t a : Str) (b : BAttrs) (c : Str) :
    P (Rustextile.footnoteBlock C t a b c) := by
  unfold Rustextile.footnoteBlock
  walkg H

theorem blockTagsOf (H : Guided C P) (t : Str) (o a : BAttrs) (ci : Option Str) (c : Str) :
    P (Rustextile.blockTagsOf C t o a ci c) := by
  unfold Rustextile.blockTagsOf
  walkg H
  all_goals first | exact H.unrestrictUrl _ | exact H.storeUrl _

theorem blockNew (H : Guided C P) {g : Str → Prog Str} (hg : ∀ t, P (g t)) (t a : Str) (ci : Option Str) (c : Str) :
    P (Rustextile.blockNew C g t a ci c) := by
  unfold Rustextile.blockNew
  walkg H
  all_goals first
    | exact H.parseAttrs _ _ | exact H.replaceP (H.parseNoteDefs hg) _ | exact H.footnoteBlock _ _ _ _
    | exact H.blockTagsOf _ _ _ _ _ | exact hg _

theorem blockBody (H : Guided C P) {g : Str → Prog Str} (hg : ∀ t, P (g t)) (s : BlkSt) (b : Str) :
    P (Rustextile.blockBody C g s b) := by
  unfold Rustextile.blockBody
  walkg H
  all_goals first | exact H.blockNew hg _ _ _ _ | exact hg _

theorem blockLoop (H : Guided C P) {g : Str → Prog Str} (hg : ∀ t, P (g t)) :
    ∀ l s, P (Rustextile.blockLoop C g s l)
  | [], s => by unfold Rustextile.blockLoop; exact H.pure _
  | x :: l, s => by
    have ih := H.blockLoop hg l
    unfold Rustextile.blockLoop Rustextile.blockStep
    walkg H
    all_goals first | exact H.blockBody hg _ _ | exact ih _

theorem block (H : Guided C P) (t : Str) : P (Rustextile.block C t) := by
  unfold Rustextile.block
  exact H.bind (H.blockLoop (H.graf _) _ _) (fun _ => H.pure _)

theorem parseBody (H : Guided C P) (t : Str) : P (Rustextile.parseBody C t) := by
  unfold Rustextile.parseBody
  walkg H
  all_goals first
    | exact H.block _ | exact H.placeNoteLists _ | exact H.glyphQuotedQuote _ | exact H.span _
    | exact H.retrieveTags _ | exact H.retrieveUrls _

theorem parseP (H : Guided C P) (t : Str) : P (Rustextile.parseP C t) := by
  unfold Rustextile.parseP
  split
  · exact H.pure _
  · exact H.bind (H.parseBody _) (fun _ => H.pure _)

end Guided

end Rustextile
