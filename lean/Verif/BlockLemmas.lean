import Verif.ProgLemmas

/-!
# The block loop, case by case
-/

namespace Rustextile

open Prog

/-- The expression that recognises the tag of a block. -/
def blockTagRe (C : Ctx) : Re := if C.cfg.lite then TEXTILE_LIGHT_TAG_RE else TEXTILE_TAG_RE

/-- A block without tag that starts with a space. -/
theorem blockBody_indented {C : Ctx} {g : Str → Prog Str} {s : BlkSt} {b : Str}
    (h : (blockTagRe C).captures C.U b = none) (hx : s.ext = []) (hs : startsWith b t!" " = true)
    (hd : DIVIDER_RE.isMatch C.U b = false) :
    blockBody C g s b = (do let t ← g b; pure (s, true, t)) := by
  unfold blockBody
  rw [show (if C.cfg.lite then TEXTILE_LIGHT_TAG_RE else TEXTILE_TAG_RE).captures C.U b = none from h]
  simp [hx, hs, hd]

/-- A block without tag. -/
theorem blockBody_anonymous {C : Ctx} {g : Str → Prog Str} {s : BlkSt} {b : Str}
    (h : (blockTagRe C).captures C.U b = none) (hs : s.ext ≠ [] ∨ startsWith b t!" " = false ∧ DIVIDER_RE.isMatch C.U b = false) :
    blockBody C g s b = (do
      let k ← blockNew C g s.tag s.atts s.cite b
      pure ({ s with eat := k.eat, lastClosing := k.outerClosing }, true,
        if k.content.isEmpty || (s.tag = t!"p" && !hasRawText C.U k.content) then k.content
        else k.innerOpening ++ k.content ++ k.innerClosing)) := by
  unfold blockBody
  rw [show (if C.cfg.lite then TEXTILE_LIGHT_TAG_RE else TEXTILE_TAG_RE).captures C.U b = none from h]
  simp only
  rw [if_pos]
  rcases hs with hs | ⟨hs, hd⟩
  · cases he : s.ext with
    | nil => exact absurd he hs
    | cons a l => simp
  · simp [hs, hd]

/-- A block with a tag. -/
theorem blockBody_tagged {C : Ctx} {g : Str → Prog Str} {s : BlkSt} {b : Str} {m : Mat}
    (h : (blockTagRe C).captures C.U b = some m) :
    blockBody C g s b = (do
      let k ← blockNew C g (m.grp 1) (m.grp 2) (m.get? 4) (m.grp 5)
      pure ({ s with out := if s.ext.isEmpty then s.out else appendLast s.lastClosing s.out
                     tag := m.grp 1, atts := m.grp 2, ext := m.grp 3, cite := m.get? 4, eat := k.eat
                     lastClosing := k.outerClosing }, false,
        k.outerOpening ++ k.innerOpening ++ k.content ++ k.innerClosing ++
          (if (m.grp 3).isEmpty then k.outerClosing else []))) := by
  unfold blockBody
  rw [show (if C.cfg.lite then TEXTILE_LIGHT_TAG_RE else TEXTILE_TAG_RE).captures C.U b = some m from h]

/-- The state in which a block outside an extended block is processed. -/
def BlkSt.start (s : BlkSt) : BlkSt :=
  { s with tag := t!"p", atts := [], cite := none, eat := false, eatWs := false }

/-- The end of a round of the loop (parser.rs:1719-1737). -/
def BlkSt.add (C : Ctx) (s : BlkSt) (anonymous : Bool) (output : Str) : BlkSt :=
  let o := s.whitespace ++ BR_TAG_RE.replaceTempl C.U C.cfg.brTag (doPBr C output)
  let s4 :=
    if !s.ext.isEmpty && anonymous then { s with out := appendLast o s.out }
    else if !s.eat then { s with out := o :: s.out }
    else s
  if s4.eat then { s4 with eatWs := true } else { s4 with whitespace := [] }

theorem blockStep_text {C : Ctx} {g : Str → Prog Str} {s : BlkSt} {b : Str} (hb : trim b ≠ []) (hx : s.ext = []) :
    blockStep C g s b = (do
      let r ← blockBody C g s.start b
      pure (r.1.add C r.2.1 r.2.2)) := by
  unfold blockStep
  rw [if_neg (by cases h : trim b <;> simp_all)]
  cases s
  simp only at hx
  subst hx
  rfl

theorem blockLoop_nil (C : Ctx) (g : Str → Prog Str) (s : BlkSt) : blockLoop C g s [] = pure s := rfl
theorem blockLoop_cons (C : Ctx) (g : Str → Prog Str) (s : BlkSt) (b : Str) (t : List Str) :
    blockLoop C g s (b :: t) = (do let s1 ← blockStep C g s b; blockLoop C g s1 t) := rfl

theorem blockLoop_single (C : Ctx) (g : Str → Prog Str) (s : BlkSt) (b : Str) :
    blockLoop C g s [b] = blockStep C g s b := by
  rw [blockLoop_cons]; exact bind_pure _

/-- A text made of a single block. -/
theorem block_single {C : Ctx} {b : Str} (hs : MULTI_ENDLINE_RE.split C.U 1 b = [b]) (hb : trim b ≠ []) :
    block C b = (do
      let r ← blockBody C (graf C C.fuel) ({} : BlkSt).start b
      let s := r.1.add C r.2.1 r.2.2
      pure (concat (if s.ext.isEmpty then s.out else appendLast s.lastClosing s.out).reverse)) := by
  unfold block
  rw [hs, blockLoop_single, blockStep_text hb rfl]
  simp only [LawfulMonad.bind_assoc, pure_bind]

end Rustextile
