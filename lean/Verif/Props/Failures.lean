import Verif.KernelRfl
import Verif.BlockLemmas
import Verif.Demo
import Verif.Props.Whole

/-!
# Panics and endless loops: C22–C24, negations

Every theorem in this file exhibits a concrete text (and settings) for which the property
does not hold.
-/

namespace Rustextile

open Prog

def isPanic : R Str → Bool
  | .error (.panic _) => true
  | _ => false

/-- **C22, negation.** Attribute strings accepted by the grammar of blocks for which the
evaluation of the attributes reaches an `unreachable!`. -/
theorem C22_negation :
    ((TEXTILE_TAG_RE.captures demoUni t!"p((-(. foo").map (·.grp 2) = some t!"((-(") ∧
    BAttrs.parse demoUni t!"((-(" none false = .error (.panic t!"Unexpected block horizontal alignment") := by
  decide +kernel

/-- **C22, negation**, for the grammar of inline markup, images and links. -/
theorem C22_negation_inline :
    ((SPAN_STRONG_RE.captures demoUni t!"*((a(b(c)foo*").map (·.grp 3) = some t!"((a(b(c)") ∧
    BAttrs.parse demoUni t!"((a(b(c)" none false = .error (.panic t!"Unexpected block horizontal alignment") ∧
    isPanic (parseFresh demoEnv 100 demoCfg t!"*((a(b(c)foo*") = true := by
  decide +kernel

/-- **C23, negation.** Three texts, with default settings or in restricted mode, for which
`parse` panics: in the evaluation of alignment, in slicing at a byte offset inside a
character, and in undoing the escaping of a URL with a query of two parameters. -/
theorem C23_negation :
    isPanic (parseFresh demoEnv 100 demoCfg t!"p((-(. foo") = true ∧
    isPanic (parseFresh demoEnv 100 demoCfg t!"* éabcd\nfoo") = true ∧
    isPanic (parseFresh demoEnv 100 (built t!"abc" [.restricted true]) t!"\"a\":http://x/?a=1&b=2") = true := by
  decide +kernel

/-! ## C24 -/

/-- The first part of `graf` (parser.rs:1515-1521). -/
def grafPre (C : Ctx) (text : Str) : Prog Str := do
  let lite := C.cfg.lite
  let t ← unlessB lite (noTextile C) text
  let t ← unlessB lite (code C) t
  let t ← getHtmlComments C t
  let t ← getRefs C t
  glyphQuotedQuote C t

/-- The last part of `graf` (parser.rs:1523-1532). -/
def grafPost (C : Ctx) (n : Nat) (t : Str) : Prog Str := do
  let lite := C.cfg.lite
  let t ← unlessB C.cfg.noimage (image C) t
  let t ← unlessB lite (table C (graf C n)) t
  let t ← unlessB lite (redclothList C (graf C n)) t
  let t ← unlessB lite (textileLists C) t
  let t ← span C t
  let t ← footnoteRef C t
  let t ← noteRef C t
  pure (trimEndP (· == '\n') (glyphs C t))

theorem graf_succ (C : Ctx) (n : Nat) (text : Str) :
    graf C (n + 1) text = (do
      let t ← grafPre C text
      let t ← links C (span C) t
      grafPost C n t) := by
  unfold graf grafPre grafPost
  simp only [LawfulMonad.bind_assoc]

theorem markLoop_endless {C : Ctx} (hE : C.E = demoEnv) : ∀ (m : Nat) (parts : List Str),
    markLoop C m t!" " [] 1 parts 0 = .error .diverge
  | 0, _ => rfl
  | m + 1, parts => by
    have h1 : START_NOSPACE_RE.isMatch C.U t!" " = false := by
      rw [show C.U = demoUni by rw [Ctx.U, hE]; rfl]; decide
    have h2 : END_NOSPACE_RE.isMatch C.U t!" " = false := by
      rw [show C.U = demoUni by rw [Ctx.U, hE]; rfl]; decide
    unfold markLoop
    rw [if_pos (by decide)]
    simp only [h1, h2]
    exact markLoop_endless hE m _

/-- **C24, negation.** For the text ` " c":x` with default settings `parse` does not
return, whatever the number of steps it is given: the loop of `mark_start_of_links`
(parser.rs:675-720) goes round forever in the same state (adding a part to the link text
in every round). -/
theorem C24_negation (n : Nat) : parseFresh demoEnv n demoCfg t!" \" c\":x" = .error .diverge := by
  cases n with
  | zero => decide +kernel
  | succ n =>
    have hm : run ⟨demoEnv, demoCfg, n + 1⟩ (links ⟨demoEnv, demoCfg, n + 1⟩ (span ⟨demoEnv, demoCfg, n + 1⟩) t!" \" c\":x") {}
        = .error .diverge := by
      have : markStartOfLinks ⟨demoEnv, demoCfg, n + 1⟩ t!" \" c\":x" = .error .diverge := by
        have h1 : SLICE_RE.split demoUni 0 t!" \" c\":x" = [t!" \" c", t!"x"] := by decide +kernel
        have h2 : markLoop ⟨demoEnv, demoCfg, n + 1⟩ (n + 1) t!" c" [t!" "] 0 [] 0 =
            markLoop ⟨demoEnv, demoCfg, n + 1⟩ n t!" " [] 1 [t!" c"] 0 := by
          have h1 : START_NOSPACE_RE.isMatch demoUni t!" c" = false := by decide
          have h2 : END_NOSPACE_RE.isMatch demoUni t!" c" = true := by decide
          conv => lhs; unfold markLoop
          rw [if_pos (by decide)]
          simp only [Ctx.U, demoEnv, h1, h2]
          rfl
        have h3 : markSlice ⟨demoEnv, demoCfg, n + 1⟩ t!" \" c" = .error .diverge := by
          unfold markSlice
          rw [if_neg (by decide), show (splitChar '"' t!" \" c").reverse = [t!" c", t!" "] by decide]
          simp only [h2, markLoop_endless (C := ⟨demoEnv, demoCfg, n + 1⟩) rfl]
        unfold markStartOfLinks
        simp only [Ctx.U, show demoEnv.U = demoUni from rfl, h1, markSlices, h3]
        rfl
      unfold links
      rw [this]
      rfl
    have hp : run ⟨demoEnv, demoCfg, n + 1⟩ (grafPre ⟨demoEnv, demoCfg, n + 1⟩ t!" \" c\":x") {}
        = .ok (t!" \" c\":x", {}) := by kernel_rfl
    have hg : run ⟨demoEnv, demoCfg, n + 1⟩ (graf ⟨demoEnv, demoCfg, n + 1⟩ (n + 1) t!" \" c\":x") {} = .error .diverge := by
      rw [graf_succ, run_bind_ok hp, run_bind, hm]
    have hb : run ⟨demoEnv, demoCfg, n + 1⟩ (block ⟨demoEnv, demoCfg, n + 1⟩ t!" \" c\":x") {} = .error .diverge := by
      have h1 : MULTI_ENDLINE_RE.split demoUni 1 t!" \" c\":x" = [t!" \" c\":x"] := by decide +kernel
      have h2 : TEXTILE_TAG_RE.captures demoUni t!" \" c\":x" = none := by decide +kernel
      have h3 : DIVIDER_RE.isMatch demoUni t!" \" c\":x" = false := by decide +kernel
      rw [block_single h1 (by decide), blockBody_indented h2 rfl rfl h3, run_bind, run_bind, hg]
    have hpb : run ⟨demoEnv, demoCfg, n + 1⟩ (parseBody ⟨demoEnv, demoCfg, n + 1⟩ t!" \" c\":x") {} = .error .diverge := by
      unfold parseBody
      rw [if_pos (show demoCfg.blockTags = true from rfl), run_bind, run_bind, hb]
    have hpr : prepare ⟨demoEnv, demoCfg, n + 1⟩ t!" \" c\":x" = t!" \" c\":x" := by kernel_rfl
    unfold parseFresh
    rw [parse_nonblank (by decide)]
    simp only [hpr]
    rw [hpb]

end Rustextile
