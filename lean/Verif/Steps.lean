import Verif.Phases

/-!
# Replacements with effects, and documents block by block

`ScanP` describes `replace_all` with a replacer that changes the state of the parser.
`Steps` follows the block loop over a list of blocks, given what happens to each of
them.
-/

namespace Rustextile

open Prog

/-! ## Replacement with effects -/

/-- Scanning with a replacer that has effects. -/
inductive ScanP (C : Ctx) (r : Re) (f : Mat → Prog Str) : Str → Str → PState → Str → PState → Prop
  | nil {pre : Str} {σ : PState} : ScanP C r f pre [] σ [] σ
  | hit {pre w rest o out : Str} {s : Caps} {σ σ1 σ2 : PState}
      (hm : r.matchAt C.U ⟨pre, w ++ rest⟩ = some (⟨w.reverse ++ pre, rest⟩, s)) (hw : w ≠ [])
      (hf : ∀ gap, Runs C (f ⟨gap, w, s⟩) o σ σ1)
      (h : ScanP C r f (w.reverse ++ pre) rest σ1 out σ2) : ScanP C r f pre (w ++ rest) σ (o ++ out) σ2
  | miss {pre xs out : Str} {x : Char} {σ σ' : PState} (hm : r.matchAt C.U ⟨pre, x :: xs⟩ = none)
      (h : ScanP C r f (x :: pre) xs σ out σ') : ScanP C r f pre (x :: xs) σ (x :: out) σ'

theorem ScanP.of_skips {C : Ctx} {r : Re} {f : Mat → Prog Str} {σ σ' : PState} : ∀ {w pre rest out : Str},
    Skips C.U r pre w rest → ScanP C r f (w.reverse ++ pre) rest σ out σ' → ScanP C r f pre (w ++ rest) σ (w ++ out) σ'
  | [], _, _, _, _, h => by simpa using h
  | x :: w, pre, rest, out, hs, h => by
    refine ScanP.miss hs.head (ScanP.of_skips hs.tail ?_)
    simpa using h

/-- A scan, cut into the text before the first match and the rest. -/
theorem ScanP.cut {C : Ctx} {r : Re} {f : Mat → Prog Str} {pre rest out : Str} {σ σ' : PState}
    (hn : r.nonnull = true) (hg : ∀ m, f m = f ⟨[], m.whole, m.caps⟩) (h : ScanP C r f pre rest σ out σ') :
    ∃ ms tail, Segs C.U r pre rest ms tail ∧ Runs C (mapSegs f ms >>= fun a => pure (a ++ tail)) out σ σ' := by
  have hend : ∀ p, r.matchAt C.U ⟨p, []⟩ = none := by
    intro p
    cases e : r.matchAt C.U ⟨p, []⟩ with
    | none => rfl
    | some q =>
      obtain ⟨w, h1, h2⟩ := Re.matchAt_nonnull hn (e := q.1) (s := q.2) e
      have := h2.1
      simp at this
      exact absurd this.1 h1
  induction h with
  | @nil pre σ => exact ⟨[], [], .done (Re.search_miss_nil (hend pre)), Runs.pure _ _⟩
  | @hit pre w rest o out s σ σ1 σ2 hm hw hf h ih =>
    obtain ⟨ms, tail, h1, h2⟩ := ih
    refine ⟨⟨[], w, s⟩ :: ms, tail, ?_, ?_⟩
    · have := Segs.hit (U := C.U) (r := r) (pre := pre) (gap := []) (whole := w) (rest := rest) (caps := s) Skips.nil
        (by simpa using hm) hw (by simpa using h1)
      simpa using this
    · simp only [mapSegs, LawfulMonad.bind_assoc]
      refine (hf []).bind ?_
      intro w0 hw0 e0
      obtain ⟨w1, e1, e2, e3⟩ := h2 w0 hw0 e0
      refine ⟨w1, ?_, e2, e3⟩
      rw [run_bind] at e1 ⊢
      cases hr : run C (mapSegs f ms) w0 with
      | error e => rw [hr] at e1; simp at e1
      | ok q =>
        rw [hr] at e1
        simp only [pure_bind] at e1 ⊢
        have e1' : Except.ok (q.1 ++ tail, q.2) = Except.ok (out, w1) := e1
        simp only [Except.ok.injEq, Prod.mk.injEq] at e1'
        change Except.ok ([] ++ o ++ q.1 ++ tail, q.2) = Except.ok (o ++ out, w1)
        rw [← e1'.1, ← e1'.2]; simp
  | @miss pre xs out x σ σ' hm h ih =>
    obtain ⟨ms, tail, h1, h2⟩ := ih
    cases h1 with
    | done hn =>
      refine ⟨[], x :: xs, .done (by rw [Re.search_miss_cons hm]; exact hn), ?_⟩
      intro w0 hw0 e0
      obtain ⟨w1, e1, e2, e3⟩ := h2 w0 hw0 e0
      have e1' : Except.ok (xs, w0) = Except.ok (out, w1) := e1
      simp only [Except.ok.injEq, Prod.mk.injEq] at e1'
      refine ⟨w1, ?_, e2, e3⟩
      rw [← e1'.1, ← e1'.2]; rfl
    | @hit _ gap whole rest tail caps ms hs hm' hw h' =>
      refine ⟨⟨x :: gap, whole, caps⟩ :: ms, tail, ?_, ?_⟩
      · have := Segs.hit (U := C.U) (r := r) (pre := pre) (gap := x :: gap) (whole := whole) (rest := rest) (caps := caps)
          (Skips.cons (by simpa using hm) hs) (by simpa using hm') hw (by simpa using h')
        simpa using this
      · rw [mapSegs, hg] at h2
        rw [mapSegs, hg]
        intro w0 hw0 e0
        obtain ⟨w1, e1, e2, e3⟩ := h2 w0 hw0 e0
        refine ⟨w1, ?_, e2, e3⟩
        simp only [LawfulMonad.bind_assoc, pure_bind] at e1 ⊢
        rw [run_bind] at e1 ⊢
        cases hr : run C (f ⟨[], whole, caps⟩) w0 with
        | error e => rw [hr] at e1; simp at e1
        | ok q =>
          rw [hr] at e1
          simp only at e1 ⊢
          rw [run_bind] at e1 ⊢
          cases hr' : run C (mapSegs f ms) q.2 with
          | error e => rw [hr'] at e1; simp at e1
          | ok q' =>
            rw [hr'] at e1
            have e1' : Except.ok (gap ++ q.1 ++ q'.1 ++ tail, q'.2) = Except.ok (out, w1) := e1
            simp only [Except.ok.injEq, Prod.mk.injEq] at e1'
            change Except.ok (x :: gap ++ q.1 ++ q'.1 ++ tail, q'.2) = Except.ok (x :: out, w1)
            rw [← e1'.1, ← e1'.2]; simp

/-- To follow a replacement with effects it is enough to exhibit a scan. -/
theorem ScanP.runs {C : Ctx} {r : Re} {f : Mat → Prog Str} {text out : Str} {σ σ' : PState}
    (hn : r.nonnull = true) (hg : ∀ m, f m = f ⟨[], m.whole, m.caps⟩) (h : ScanP C r f [] text σ out σ') :
    Runs C (replaceP C r f text) out σ σ' := by
  obtain ⟨ms, tail, h1, h2⟩ := h.cut hn hg
  unfold replaceP Re.replaceAllM
  rw [Re.matches_of_Segs h1]
  exact h2

/-! ## The block loop -/

/-- What happens to the blocks of a document, one after the other. -/
inductive Steps (C : Ctx) : List (Str × Nat) → PState → PState → List (Str × Nat) → Prop
  | one {b h : Str} {k : Nat} {σ σ' : PState} : StepTo C b σ σ' h → Steps C [(b, k)] σ σ' [(h, k)]
  | cons {b h : Str} {k : Nat} {σ σ' σ'' : PState} {ps qs : List (Str × Nat)} :
    StepTo C b σ σ' h → Steps C ps σ' σ'' qs → Steps C ((b, k) :: ps) σ σ'' ((h, k) :: qs)

theorem Steps.ne {C : Ctx} {ps qs : List (Str × Nat)} {σ σ' : PState} (h : Steps C ps σ σ' qs) : ps ≠ [] ∧ qs ≠ [] := by
  cases h <;> simp

theorem Steps.loop {C : Ctx} {ps qs : List (Str × Nat)} {σ σ' : PState} (h : Steps C ps σ σ' qs) :
    ∀ s : BlkSt, s.ext = [] → ∃ s', Runs C (blockLoop C (graf C C.fuel) s (interleave ps)) s' σ σ' ∧ s'.ext = [] ∧
      concat s'.out.reverse = concat s.out.reverse ++ (s.whitespace ++ Spec.glue qs) := by
  induction h with
  | @one b h k σ σ' hst =>
    intro s hs
    rw [show interleave [(b, k)] = [b] from rfl, blockLoop_single]
    obtain ⟨s', h1, h2, h3, h4, h5⟩ := hst s hs
    exact ⟨s', h1, h2, by rw [h5]; simp [Spec.glue, concat]⟩
  | @cons b h k σ σ' σ'' ps qs hst hr ih =>
    intro s hs
    obtain ⟨hp, hq⟩ := hr.ne
    have e : interleave ((b, k) :: ps) = b :: nls (k + 2) :: interleave ps := by
      cases ps with
      | nil => exact absurd rfl hp
      | cons p ps => rfl
    rw [e]
    simp only [blockLoop_cons]
    obtain ⟨s', h1, h2, h3, h4, h5⟩ := hst s hs
    have hn := step_nls (C := C) (g := graf C C.fuel) s' (k + 2) σ'
    rw [if_neg (by rw [h3]; simp)] at hn
    obtain ⟨s2, r1, r2, r3⟩ := ih { s' with whitespace := s'.whitespace ++ nls (k + 2) } h2
    refine ⟨s2, h1.bind (hn.bind r1), r2, ?_⟩
    rw [r3, glue_cons hq]
    simp [h4, h5, concat]

theorem Steps.block {C : Ctx} {ps qs : List (Str × Nat)} {σ : PState} (h : Steps C ps {} σ qs) (hc : ∀ p ∈ ps, Chunk p.1) :
    Runs C (block C (Spec.glue ps)) (Spec.glue qs) {} σ := by
  obtain ⟨s', h1, h2, h3⟩ := h.loop {} rfl
  unfold Rustextile.block
  rw [split_glue C.U h.ne.1 hc]
  refine h1.bind ?_
  simp only [h2, List.isEmpty_nil, if_true]
  have e : concat s'.out.reverse = Spec.glue qs := by rw [h3]; simp [concat]
  rw [e]
  exact Runs.pure _ _

/-! ## The whole conversion -/

/-- What follows the block parser: the texts set aside are put back. -/
def restProg (C : Ctx) (t : Str) : Prog Str := do
  let st ← getStP
  let t ← ofR (retrieve st.shelf C.fuel t)
  let t := replaceStr (C.cfg.uid ++ t!":glyph:") [] t
  let t ← retrieveTags C t
  retrieveUrls C t

theorem Steps.body {C : Ctx} (hbt : C.cfg.blockTags = true) {ps qs : List (Str × Nat)} {σ : PState} (h : Steps C ps {} σ qs)
    (hc : ∀ p ∈ ps, Chunk p.1) (hl : containsStr t!"<p>notelist" (Spec.glue qs) = false) {out : Str}
    (hr : Runs C (restProg C (Spec.glue qs)) out { σ with aux := splitNotes σ.aux } { σ with aux := splitNotes σ.aux }) :
    Runs C (parseBody C (Spec.glue ps)) out {} { σ with aux := splitNotes σ.aux } := by
  unfold parseBody
  rw [if_pos hbt]
  refine Runs.bind (a := Spec.glue qs) (σ' := { σ with aux := splitNotes σ.aux }) ((h.block hc).bind ?_) hr
  unfold placeNoteLists
  rw [replaceP_none (Re.starts_search NOTELIST_starts hl [])]
  intro w hw e
  exact ⟨_, rfl, by rw [← e]; rfl, hw⟩

/-- The whole conversion, given what the parts of it do. -/
theorem parse_steps {E : Env} {fuel : Nat} {cfg : Cfg} (hbt : cfg.blockTags = true)
    {text out t2 : Str} {ps qs : List (Str × Nat)} {σ : PState} (hb : ¬ Spec.Blank text)
    (hp : prepare ⟨E, cfg, fuel⟩ text = Spec.glue ps) (h : Steps ⟨E, cfg, fuel⟩ ps {} σ qs)
    (hc : ∀ p ∈ ps, Chunk p.1) (hl : containsStr t!"<p>notelist" (Spec.glue qs) = false)
    (hr : Runs ⟨E, cfg, fuel⟩ (restProg ⟨E, cfg, fuel⟩ (Spec.glue qs)) t2
      { σ with aux := splitNotes σ.aux } { σ with aux := splitNotes σ.aux })
    (hf : finish ⟨E, cfg, fuel⟩ t2 = out) : parseFresh E fuel cfg text = .ok out := by
  obtain ⟨w', e, -, -⟩ := h.body (C := ⟨E, cfg, fuel⟩) hbt hc hl hr { cache := [] } (Cache.valid_nil _) rfl
  unfold parseFresh
  rw [parse_nonblank hb]
  simp only [hp]
  rw [e]
  simp only
  rw [hf]

end Rustextile
