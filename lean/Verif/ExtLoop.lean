import Verif.EndParse
import Verif.SpecExt

/-!
# The block loop with extended blocks
-/

namespace Rustextile

open Prog

/-- The state inside an extended block. -/
structure InExt (s : BlkSt) (tag atts close : Str) : Prop where
  ext : s.ext ≠ []
  tag : s.tag = tag
  atts : s.atts = atts
  cite : s.cite = none
  close : s.lastClosing = close
  ws : s.whitespace = []
  eat : s.eatWs = false

/-- What the first text of an extended block does. -/
def OpenTo (C : Ctx) (b : Str) (σ σ' : PState) (q tag atts close : Str) : Prop :=
  ∀ s : BlkSt, s.ext = [] → ∃ s', Runs C (blockStep C (graf C C.fuel) s b) s' σ σ' ∧ InExt s' tag atts close ∧ s'.out = (s.whitespace ++ q) :: s.out

/-- What a text in an extended block does. -/
def ContTo (C : Ctx) (b : Str) (σ σ' : PState) (q tag atts close : Str) : Prop :=
  ∀ s : BlkSt, s.ext ≠ [] → s.tag = tag → s.atts = atts → s.cite = none →
    ∃ s', Runs C (blockStep C (graf C C.fuel) s b) s' σ σ' ∧ InExt s' tag atts close ∧ s'.out = appendLast (s.whitespace ++ q) s.out

theorem open_of_body {C : Ctx} {b o q tag atts close : Str} {σ σ' : PState} (hb : trim b ≠ [])
    (hh : BR_TAG_RE.replaceTempl C.U C.cfg.brTag (doPBr C o) = q)
    (hbody : ∀ s : BlkSt, s.ext = [] → ∃ s1, Runs C (blockBody C (graf C C.fuel) s b) (s1, false, o) σ σ' ∧ s1.ext ≠ [] ∧ s1.eat = false ∧
        s1.out = s.out ∧ s1.whitespace = s.whitespace ∧ s1.eatWs = s.eatWs ∧ s1.tag = tag ∧ s1.atts = atts ∧ s1.cite = none ∧ s1.lastClosing = close) :
    OpenTo C b σ σ' q tag atts close := by
  intro s hs
  obtain ⟨s1, h1, h2, h3, h4, h5, h6, h7, h8, h9, h10⟩ := hbody s.start hs
  refine ⟨s1.add C false o, ?_, ?_⟩
  · rw [blockStep_text hb hs]
    exact h1.bind (Runs.pure _ _)
  · have e : s1.add C false o = { s1 with out := (s.whitespace ++ q) :: s.out, whitespace := [] } := by
      rcases s1 with ⟨a1, a2, a3, a4, a5, a6, a7, a8, a9⟩
      simp only at h2 h3 h4 h5 h6
      subst h3 h4 h5 h6
      simp [BlkSt.add, hh, BlkSt.start]
    rw [e]
    exact ⟨⟨h2, h7, h8, h9, h10, rfl, h6⟩, rfl⟩

theorem cont_of_body {C : Ctx} {b o q tag atts close : Str} {σ σ' : PState} (hb : trim b ≠ [])
    (hh : BR_TAG_RE.replaceTempl C.U C.cfg.brTag (doPBr C o) = q)
    (hbody : ∀ s : BlkSt, s.ext ≠ [] → s.tag = tag → s.atts = atts → s.cite = none →
      Runs C (blockBody C (graf C C.fuel) s b) ({ s with eat := false, lastClosing := close }, true, o) σ σ') :
    ContTo C b σ σ' q tag atts close := by
  intro s hs ht ha hc
  have h1 := hbody { s with eatWs := false } hs ht ha hc
  refine ⟨{ s with eatWs := false, eat := false, lastClosing := close, whitespace := [], out := appendLast (s.whitespace ++ q) s.out }, ?_,
    ⟨hs, ht, ha, hc, rfl, rfl, rfl⟩, rfl⟩
  unfold blockStep
  have h2 : (trim b).isEmpty = false := by cases h : trim b <;> simp_all
  have h3 : s.ext.isEmpty = false := by cases h : s.ext <;> simp_all
  simp only [h2, h3, Bool.false_eq_true, if_false]
  refine h1.bind ?_
  simp only [h3, Bool.not_false, Bool.true_and, if_true, Bool.false_eq_true, if_false, hh]
  exact Runs.pure _ _

/-- A block that starts with a tag. -/
def Heading (C : Ctx) (b : Str) : Prop := (∃ m, (blockTagRe C).captures C.U b = some m) ∧ trim b ≠ []

/-- It ends an extended block. -/
theorem step_heading {C : Ctx} {g : Str → Prog Str} {s : BlkSt} {b : Str} (h : Heading C b) (hs : s.ext ≠ []) :
    blockStep C g s b = blockStep C g { s with ext := [], out := appendLast s.lastClosing s.out } b := by
  obtain ⟨⟨m, hm⟩, hb⟩ := h
  unfold blockStep
  have h1 : (trim b).isEmpty = false := by cases h : trim b <;> simp_all
  have h2 : s.ext.isEmpty = false := by cases h : s.ext <;> simp_all
  simp only [h1, h2, Bool.false_eq_true, if_false, blockBody_tagged hm, List.isEmpty_nil, if_true]

inductive Conts (C : Ctx) (tag atts close : Str) : List (Nat × Str) → PState → PState → List (Nat × Str) → Prop
  | nil {σ : PState} : Conts C tag atts close [] σ σ []
  | cons {n : Nat} {b q : Str} {bs qs : List (Nat × Str)} {σ σ' σ'' : PState} : ContTo C b σ σ' q tag atts close → Conts C tag atts close bs σ' σ'' qs →
    Conts C tag atts close ((n, b) :: bs) σ σ'' ((n, q) :: qs)

/-- Texts with the newlines before them. -/
def tailOf (ps : List (Nat × Str)) : Str := ps.flatMap (fun p => nls (p.1 + 2) ++ p.2)

theorem glue_chain {x : Str} {ps : List (Nat × Str)} {k : Nat} : Spec.glue (Spec.chain x ps k) = x ++ tailOf ps := by
  induction ps generalizing x with
  | nil => simp [Spec.chain, Spec.glue, tailOf]
  | cons p ps ih =>
    rw [Spec.chain, glue_cons (by cases ps <;> simp [Spec.chain]), ih]
    simp [tailOf]

theorem blockLoop_append {C : Ctx} {g : Str → Prog Str} : ∀ {l l' : List Str} {s s1 s2 : BlkSt} {σ σ1 σ2 : PState},
    Runs C (blockLoop C g s l) s1 σ σ1 → Runs C (blockLoop C g s1 l') s2 σ1 σ2 → Runs C (blockLoop C g s (l ++ l')) s2 σ σ2 := by
  intro l l' s s1 s2 σ σ1 σ2 h1 h2
  have e : ∀ (l : List Str) (s : BlkSt), blockLoop C g s (l ++ l') = (blockLoop C g s l >>= fun s1 => blockLoop C g s1 l') := by
    intro l
    induction l with
    | nil => intro s; rw [List.nil_append, blockLoop_nil, pure_bind]
    | cons b l ih =>
      intro s
      rw [List.cons_append, blockLoop_cons, blockLoop_cons]
      show Prog.bind _ _ = Prog.bind (Prog.bind _ _) _
      rw [Prog.bind_assoc]
      show Prog.bind _ _ = Prog.bind _ _
      congr 1
      funext s1
      exact ih s1
  rw [e]
  exact h1.bind h2

/-- The texts of an extended block after the first. -/
def tailPieces (bs : List (Nat × Str)) : List Str := bs.flatMap (fun p => [nls (p.1 + 2), p.2])

theorem interleave_chain {b : Str} {bs : List (Nat × Str)} {k : Nat} {ps : List (Str × Nat)} :
    interleave (Spec.chain b bs k ++ ps) = b :: (tailPieces bs ++ (if ps = [] then [] else nls (k + 2) :: interleave ps)) := by
  induction bs generalizing b with
  | nil =>
    cases ps with
    | nil => rfl
    | cons p ps => simp [Spec.chain, interleave, tailPieces]
  | cons p bs ih =>
    have : ∃ y l, Spec.chain p.2 bs k ++ ps = y :: l := by cases bs <;> exact ⟨_, _, rfl⟩
    obtain ⟨y, l, e⟩ := this
    rw [show Spec.chain b (p :: bs) k ++ ps = (b, p.1) :: (Spec.chain p.2 bs k ++ ps) from rfl, e,
      show interleave ((b, p.1) :: y :: l) = b :: nls (p.1 + 2) :: interleave (y :: l) from rfl, ← e, ih]
    simp [tailPieces]

theorem Conts.loop {C : Ctx} {tag atts close : Str} {bs qs : List (Nat × Str)} {σ σ' : PState} (h : Conts C tag atts close bs σ σ' qs) :
    ∀ (s : BlkSt) (x : Str) (o : List Str), InExt s tag atts close → s.out = x :: o →
      ∃ s', Runs C (blockLoop C (graf C C.fuel) s (tailPieces bs)) s' σ σ' ∧ InExt s' tag atts close ∧ s'.out = (x ++ tailOf qs) :: o := by
  induction h with
  | nil =>
    intro s x o hs ho
    exact ⟨s, Runs.pure _ _, hs, by rw [ho]; simp [tailOf]⟩
  | @cons n b q bs qs σ σ' σ'' hc _ ih =>
    intro s x o hs ho
    have hn := step_nls (C := C) (g := graf C C.fuel) s (n + 2) σ
    rw [if_neg (by rw [hs.eat]; simp)] at hn
    obtain ⟨s1, r1, r2, r3⟩ := hc { s with whitespace := s.whitespace ++ nls (n + 2) } hs.ext hs.tag hs.atts hs.cite
    simp only [hs.ws, List.nil_append, ho, appendLast] at r3
    obtain ⟨s2, t1, t2, t3⟩ := ih s1 _ o r2 r3
    refine ⟨s2, ?_, t2, ?_⟩
    · rw [show tailPieces ((n, b) :: bs) = nls (n + 2) :: b :: tailPieces bs from rfl]
      simp only [blockLoop_cons]
      exact hn.bind (r1.bind t1)
    · rw [t3]; simp [tailOf]

/-- What happens to the blocks of a document with extended blocks. -/
inductive Gathers (C : Ctx) : List (Str × Nat) → PState → PState → List (Str × Nat) → Prop
  | nil {σ : PState} : Gathers C [] σ σ []
  | step {b h : Str} {k : Nat} {σ σ' σ'' : PState} {ps qs : List (Str × Nat)} :
    StepTo C b σ σ' h → Gathers C ps σ' σ'' qs → Gathers C ((b, k) :: ps) σ σ'' ((h, k) :: qs)
  | group {b q tag atts close : Str} {bs qs0 : List (Nat × Str)} {k : Nat} {σ σ1 σ2 σ3 : PState} {ps qs : List (Str × Nat)} :
    OpenTo C b σ σ1 q tag atts close → Conts C tag atts close bs σ1 σ2 qs0 → (∀ p ∈ ps.head?, Heading C p.1) → Gathers C ps σ2 σ3 qs →
    Gathers C (Spec.chain b bs k ++ ps) σ σ3 ((q ++ (tailOf qs0 ++ close), k) :: qs)

theorem chain_ne {b : Str} {bs : List (Nat × Str)} {k : Nat} : Spec.chain b bs k ≠ [] := by cases bs <;> simp [Spec.chain]

theorem Gathers.of_nil {C : Ctx} {qs : List (Str × Nat)} {σ σ' : PState} (h : Gathers C [] σ σ' qs) : σ' = σ ∧ qs = [] := by
  generalize hps : ([] : List (Str × Nat)) = ps at h
  cases h with
  | nil => exact ⟨rfl, rfl⟩
  | step _ _ => cases hps
  | group => exact absurd (List.append_eq_nil_iff.1 hps.symm).1 chain_ne

theorem runs_placeNoteLists {C : Ctx} {t : Str} {σ : PState} (hl : containsStr t!"<p>notelist" t = false) :
    Runs C (placeNoteLists C t) t σ { σ with aux := splitNotes σ.aux } := by
  unfold placeNoteLists
  rw [replaceP_none (Re.starts_search NOTELIST_starts hl [])]
  intro w hw e
  exact ⟨_, rfl, by rw [← e]; rfl, hw⟩

theorem interleave_ne {ps : List (Str × Nat)} (hne : ps ≠ []) : ∃ b l, interleave ps = b :: l ∧ ∀ p ∈ ps.head?, p.1 = b := by
  match ps, hne with
  | [(t, k)], _ => exact ⟨t, [], rfl, by simp⟩
  | (t, k) :: p :: ps, _ => exact ⟨t, _, rfl, by simp⟩

/-- The output at the end. -/
def BlkSt.final (s : BlkSt) : List Str := if s.ext.isEmpty then s.out else appendLast s.lastClosing s.out

theorem Gathers.loop {C : Ctx} {ps qs : List (Str × Nat)} {σ σ' : PState} (h : Gathers C ps σ σ' qs) :
    ∀ s : BlkSt, s.ext = [] → ∃ s', Runs C (blockLoop C (graf C C.fuel) s (interleave ps)) s' σ σ' ∧
      concat s'.final.reverse = concat s.out.reverse ++ added s.whitespace qs := by
  induction h with
  | nil =>
    intro s hs
    rw [show interleave [] = [nls 0] from rfl, blockLoop_single]
    refine ⟨_, step_nls s 0 _, ?_⟩
    split <;> simp [BlkSt.final, hs, added]
  | @step b h k σ σ' σ'' ps qs hst hr ih =>
    intro s hs
    obtain ⟨s', h1, h2, h3, h4, h5⟩ := hst s hs
    cases ps with
    | nil =>
      have := hr.of_nil
      obtain ⟨rfl, rfl⟩ := this
      rw [show interleave [(b, k)] = [b] from rfl, blockLoop_single]
      exact ⟨s', h1, by simp [BlkSt.final, h2, h5, added, Spec.glue, concat]⟩
    | cons p ps =>
      rw [show interleave ((b, k) :: p :: ps) = b :: nls (k + 2) :: interleave (p :: ps) from rfl]
      simp only [blockLoop_cons]
      have hn := step_nls (C := C) (g := graf C C.fuel) s' (k + 2) σ'
      rw [if_neg (by rw [h3]; simp)] at hn
      obtain ⟨s2, r1, r3⟩ := ih { s' with whitespace := s'.whitespace ++ nls (k + 2) } h2
      refine ⟨s2, h1.bind (hn.bind r1), ?_⟩
      rw [r3, added_cons]
      simp [h4, h5, concat]
  | @group b q tag atts close bs qs0 k σ σ1 σ2 σ3 ps qs ho hc hh hr ih =>
    intro s hs
    obtain ⟨s1, h1, h2, h3⟩ := ho s hs
    obtain ⟨s2, g1, g2, g3⟩ := hc.loop s1 _ _ h2 h3
    rw [interleave_chain, blockLoop_cons]
    have hext : s2.ext.isEmpty = false := by cases h : s2.ext with | nil => exact absurd h g2.ext | cons => rfl
    by_cases hp : ps = []
    · subst hp
      have := hr.of_nil
      obtain ⟨rfl, rfl⟩ := this
      rw [if_pos rfl, List.append_nil]
      refine ⟨s2, h1.bind g1, ?_⟩
      simp [BlkSt.final, hext, g3, g2.close, appendLast, added, Spec.glue, concat]
    · rw [if_neg hp]
      have hn := step_nls (C := C) (g := graf C C.fuel) s2 (k + 2) σ2
      rw [if_neg (by rw [g2.eat]; simp), g2.ws, List.nil_append] at hn
      obtain ⟨s3, r1, r3⟩ := ih { s2 with whitespace := nls (k + 2), ext := [], out := appendLast s2.lastClosing s2.out } rfl
      obtain ⟨b', l, e, hb'⟩ := interleave_ne hp
      have hhead : Heading C b' := by
        cases ps with
        | nil => exact absurd rfl hp
        | cons p ps => rw [← hb' p (by simp)]; exact hh p (by simp)
      refine ⟨s3, h1.bind (blockLoop_append g1 ?_), ?_⟩
      · rw [blockLoop_cons]
        refine hn.bind ?_
        rw [e, blockLoop_cons] at r1 ⊢
        rw [step_heading hhead (s := { s2 with whitespace := nls (k + 2) }) g2.ext]
        exact r1
      · rw [r3, added_cons]
        simp [g3, g2.close, appendLast, concat]

theorem Gathers.block {C : Ctx} {ps qs : List (Str × Nat)} {σ : PState} (h : Gathers C ps {} σ qs) (hne : ps ≠ []) (hc : ∀ p ∈ ps, Chunk p.1) :
    Runs C (block C (Spec.glue ps)) (Spec.glue qs) {} σ := by
  obtain ⟨s', h1, h3⟩ := h.loop {} rfl
  unfold Rustextile.block
  rw [split_glue C.U hne hc]
  refine h1.bind ?_
  have e : concat s'.final.reverse = Spec.glue qs := by
    rw [h3]
    simp only [added, concat]
    split
    · rename_i hq; subst hq; rfl
    · simp
  rw [← e]
  exact Runs.pure _ _

/-- What an extended block does in a state that satisfies `P`. -/
structure Group (C : Ctx) (P P' : PState → Prop) (b : Str) (bs : List (Nat × Str)) (n : Nat) (h : Str) : Prop where
  lines : ∀ x ∈ b :: bs.map (·.2), ∃ ls, ls ≠ [] ∧ (∀ l ∈ ls, Spec.RawLine l) ∧ x = Spec.join t!"\n" ls
  first : ∃ c u, b = c :: u ∧ isWs c = false
  run : ∀ σ : PState, P σ → σ.spanDepth + 1 ≤ C.cfg.maxSpanDepth → ∃ σ1 σ' q qs tag atts close mid, OpenTo C b σ σ1 q tag atts close ∧
    Conts C tag atts close bs σ1 σ' qs ∧ Grows C.cfg.uid σ σ' ∧ P' σ' ∧ σ'.refIndex ≤ σ.refIndex + 2 * n ∧
    (∀ τ : PState, Agrees C.cfg.uid σ' τ → σ'.refIndex < 2 ^ 32 → Rep C.cfg.uid τ (q ++ (tailOf qs ++ close)) mid) ∧
    containsStr t!"<p>notelist" (q ++ (tailOf qs ++ close)) = false ∧ Turns (Spec.tidyBreaks C.cfg.brTag) mid h
  ending : h ≠ [] ∧ h.getLast? ≠ some '\n'

inductive Gather (C : Ctx) : (PState → Prop) → List (Str × Nat) → Nat → List (Str × Nat) → Prop
  | nil {P : PState → Prop} : Gather C P [] 0 []
  | act {P P' : PState → Prop} {s h : Str} {n m k : Nat} {ss hs : List (Str × Nat)} : Act C P P' s n h → Gather C P' ss m hs →
    Gather C P ((s, k) :: ss) (n + m) ((h, k) :: hs)
  | group {P P' : PState → Prop} {b h : Str} {bs : List (Nat × Str)} {n m k : Nat} {ss hs : List (Str × Nat)} : Group C P P' b bs n h →
    (∀ p ∈ ss.head?, Heading C p.1) → Gather C P' ss m hs → Gather C P (Spec.chain b bs k ++ ss) (n + m) ((h, k) :: hs)

theorem mem_chain {b : Str} {bs : List (Nat × Str)} {k : Nat} {p : Str × Nat} (hp : p ∈ Spec.chain b bs k) : p.1 ∈ b :: bs.map (·.2) := by
  induction bs generalizing b with
  | nil => simp [Spec.chain] at hp; simp [hp]
  | cons x bs ih =>
    rcases List.mem_cons.1 hp with rfl | hp
    · simp
    · exact List.mem_cons_of_mem _ (ih hp)

theorem Gather.lines {C : Ctx} {P : PState → Prop} {ss hs : List (Str × Nat)} {n : Nat} (h : Gather C P ss n hs) :
    ∀ p ∈ ss, ∃ ls, ls ≠ [] ∧ (∀ l ∈ ls, Spec.RawLine l) ∧ p.1 = Spec.join t!"\n" ls := by
  induction h with
  | nil => simp
  | act a _ ih =>
    intro p hp
    rcases List.mem_cons.1 hp with rfl | hp
    · exact a.lines
    · exact ih p hp
  | group a _ _ ih =>
    intro p hp
    rcases List.mem_append.1 hp with hp | hp
    · exact a.lines _ (mem_chain hp)
    · exact ih p hp

theorem Gather.ending {C : Ctx} {P : PState → Prop} {ss hs : List (Str × Nat)} {n : Nat} (h : Gather C P ss n hs) :
    ∀ p ∈ hs, p.1 ≠ [] ∧ p.1.getLast? ≠ some '\n' := by
  induction h with
  | nil => simp
  | act a _ ih =>
    intro p hp
    rcases List.mem_cons.1 hp with rfl | hp
    · exact a.ending
    · exact ih p hp
  | group a _ _ ih =>
    intro p hp
    rcases List.mem_cons.1 hp with rfl | hp
    · exact a.ending
    · exact ih p hp

theorem glue_first {t : Str} {k : Nat} {ps : List (Str × Nat)} : ∃ r, Spec.glue ((t, k) :: ps) = t ++ r := by
  cases ps with
  | nil => exact ⟨[], by simp [Spec.glue]⟩
  | cons p ps => exact ⟨_, rfl⟩

theorem Gather.nonblank {C : Ctx} {P : PState → Prop} {ss hs : List (Str × Nat)} {n : Nat} (h : Gather C P ss n hs) (hne : ss ≠ []) :
    ∃ c u, Spec.glue ss = c :: u ∧ isWs c = false := by
  cases h with
  | nil => exact absurd rfl hne
  | act a _ =>
    obtain ⟨c, u, rfl, hc⟩ := a.first
    obtain ⟨r, e⟩ := glue_first (t := c :: u) (k := _) (ps := _)
    exact ⟨c, _, e, hc⟩
  | @group _ _ b _ bs _ _ k ss' _ a _ _ =>
    obtain ⟨c, u, rfl, hc⟩ := a.first
    have : ∃ k' l, Spec.chain (c :: u) bs k ++ ss' = (c :: u, k') :: l := by cases bs <;> exact ⟨_, _, rfl⟩
    obtain ⟨k', l, e⟩ := this
    obtain ⟨r, e'⟩ := glue_first (t := c :: u) (k := k') (ps := l)
    exact ⟨c, _, by rw [e, e']; rfl, hc⟩

structure GathersTo (C : Ctx) (ps : List (Str × Nat)) (n : Nat) (σ σ' : PState) (qs mids hs : List (Str × Nat)) : Prop where
  gathers : Gathers C ps σ σ' qs
  grow : Grows C.cfg.uid σ σ'
  index : σ'.refIndex ≤ σ.refIndex + 2 * n
  rep : ∀ τ : PState, Agrees C.cfg.uid σ' τ → σ'.refIndex < 2 ^ 32 → Reps C.cfg.uid τ qs mids
  nolist : ∀ q ∈ qs, containsStr t!"<p>notelist" q.1 = false
  tidied : Tidied C.cfg.brTag mids hs

theorem Gather.run {C : Ctx} {P : PState → Prop} {ss hs : List (Str × Nat)} {n : Nat} (h : Gather C P ss n hs) :
    ∀ σ : PState, P σ → σ.spanDepth + 1 ≤ C.cfg.maxSpanDepth → ∃ σ' qs mids, GathersTo C ss n σ σ' qs mids hs := by
  induction h with
  | nil =>
    intro σ hP hd
    exact ⟨σ, [], [], ⟨.nil, (Grow.refl _ _).toGrows, by omega, fun _ _ _ => .nil, by simp, .nil⟩⟩
  | @act P P' s h n m k ss hs a _ ih =>
    intro σ hP hd
    obtain ⟨σ1, q, mid, h1, h2, h3, h4, h5, h6, h7⟩ := a.run σ hP hd
    obtain ⟨σ2, qs, mids, r⟩ := ih σ1 h3 (by rw [h2.depth]; exact hd)
    refine ⟨σ2, (q, k) :: qs, (mid, k) :: mids, ⟨.step h1 r.gathers, h2.trans r.grow, ?_, ?_, ?_, .cons h7 r.tidied⟩⟩
    · have := r.index; omega
    · intro τ g1 g2
      have hi := r.grow.index
      exact .cons (h5 τ (g1.before0 r.grow) (by omega)) (r.rep τ g1 g2)
    · intro x hx
      rcases List.mem_cons.1 hx with rfl | hx
      · exact h6
      · exact r.nolist x hx
  | @group P P' b h bs n m k ss hs a hh _ ih =>
    intro σ hP hd
    obtain ⟨σ0, σ1, q, qs0, tag, atts, close, mid, h0, h1, h2, h3, h4, h5, h6, h7⟩ := a.run σ hP hd
    obtain ⟨σ2, qs, mids, r⟩ := ih σ1 h3 (by rw [h2.depth]; exact hd)
    refine ⟨σ2, (_, k) :: qs, (mid, k) :: mids, ⟨.group h0 h1 hh r.gathers, h2.trans r.grow, ?_, ?_, ?_, .cons h7 r.tidied⟩⟩
    · have := r.index; omega
    · intro τ g1 g2
      have hi := r.grow.index
      exact .cons (h5 τ (g1.before0 r.grow) (by omega)) (r.rep τ g1 g2)
    · intro x hx
      rcases List.mem_cons.1 hx with rfl | hx
      · exact h6
      · exact r.nolist x hx

/-- The whole conversion of a document with extended blocks. -/
theorem parse_gather {E : Env} {fuel : Nat} {cfg : Cfg} {base : Str} (D : DocCtx ⟨E, cfg, fuel⟩ base)
    (hbt : cfg.blockTags = true) (hsan : cfg.sanitizer = none) (hdep : 1 ≤ cfg.maxSpanDepth) {P : PState → Prop} (hP : P {})
    {text : Str} {ss hs : List (Str × Nat)} {n : Nat} (h : Gather ⟨E, cfg, fuel⟩ P ss n hs) (hne : ss ≠ [])
    (hseen : (if cfg.restricted then encodeHtml text false false else text) = Spec.glue ss)
    (htok : ¬ cfg.uid <:+: text) (hn : 2 * n < 2 ^ 32) : parseFresh E fuel cfg text = .ok (Spec.glue hs) := by
  obtain ⟨hprep, hbl, h2⟩ := prepared D h.lines (h.nonblank hne) hseen htok
  obtain ⟨σ, qs, mids, hr⟩ := h.run {} hP hdep
  have hnl := not_contains_glue (by decide) (by simp) hr.nolist
  have hrest := runs_tags D (ShelfInv.ok (σ := { σ with aux := splitNotes σ.aux }) (hr.grow.inv (ShelfInv.empty rfl)))
      (by have := hr.grow.urls; simp only [splitNotes]; split <;> exact this)
      (hr.rep { σ with aux := splitNotes σ.aux } (fun _ _ => ⟨rfl, rfl⟩) (by
        have := hr.index
        exact Nat.lt_of_le_of_lt this (by simpa using hn))).glue
  have hbody : Runs ⟨E, cfg, fuel⟩ (parseBody ⟨E, cfg, fuel⟩ (Spec.glue ss)) (Spec.glue mids) {} { σ with aux := splitNotes σ.aux } := by
    unfold parseBody
    rw [if_pos hbt]
    exact Runs.bind (a := Spec.glue qs) (σ' := { σ with aux := splitNotes σ.aux }) ((hr.gathers.block hne h2).bind (runs_placeNoteLists hnl)) hrest
  have hf : finish ⟨E, cfg, fuel⟩ (Spec.glue mids) = Spec.glue hs := by
    rw [finish_eq, show (⟨E, cfg, fuel⟩ : Ctx).cfg.sanitizer = none from hsan]
    simp only
    rw [hr.tidied.glue, ← dropFinalNewlines_eq]
    apply trimEndP_of_last
    intro c hc
    have := glue_last h.ending
    rw [hc] at this
    simpa using this
  obtain ⟨w', e, -, -⟩ := hbody { cache := [] } (Cache.valid_nil _) rfl
  unfold parseFresh
  rw [parse_nonblank hbl]
  simp only [hprep]
  rw [e]
  simp only
  rw [hf]

end Rustextile
