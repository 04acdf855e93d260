import Verif.Inert
import Verif.BlockLemmas
import Verif.KernelRfl

/-!
# The tag of a block
-/

namespace Rustextile

/-- Tags as in `TEXTILE_TAG_RE`, `TEXTILE_LIGHT_TAG_RE`. -/
def tagWords (lite : Bool) : Re :=
  match (if lite then TEXTILE_LIGHT_TAG_RE else TEXTILE_TAG_RE) with
  | .seq _ (.seq (.grp _ n) _) => n
  | _ => .eps

/-- Attributes after a tag. -/
def tagAtts : Re :=
  match TEXTILE_TAG_RE with
  | .seq _ (.seq _ (.seq (.grp _ a) _)) => a
  | _ => .eps

def dotRe : Re := .set false [.chr '.']
def extRe : Re := .grp 3 (.alt (.set false [.chr '.']) .eps)
def citeRe : Re := .alt (.seq (.set false [.chr ':']) (.grp 4 (.seq (.set false [.ncls .space]) (.star true (.set false [.ncls .space]))))) .eps
def spRe : Re := .set false [.chr ' ']
def allRe : Re := .seq (.grp 5 (.star true (.set true []))) .eot

theorem tagRe_shape (b : Bool) : (if b then TEXTILE_LIGHT_TAG_RE else TEXTILE_TAG_RE) =
    .seq .bot (.seq (.grp 1 (tagWords b)) (.seq (.grp 2 tagAtts) (.seq dotRe (.seq extRe (.seq citeRe (.seq spRe allRe)))))) := by
  cases b <;> kernel_rfl

/-- The part of the expression before the content. -/
def tagHead (b : Bool) : Re :=
  .seq .bot (.seq (.grp 1 (tagWords b)) (.seq (.grp 2 tagAtts) (.seq dotRe (.seq extRe (.seq citeRe spRe)))))

theorem tagRe_all (b : Bool) (U : Uni) (c : Cur) (s : Caps) :
    (if b then TEXTILE_LIGHT_TAG_RE else TEXTILE_TAG_RE).all U c s =
      ((tagHead b).all U c s).flatMap (fun p => allRe.all U p.1 p.2) := by
  rw [tagRe_shape]
  simp only [tagHead, all_seq, List.flatMap_assoc]

/-- The block tags without attributes. -/
def plainTags (lite : Bool) : List Str :=
  if lite then [t!"bq", t!"bc", t!"p"]
  else [t!"bq", t!"bc", t!"notextile", t!"pre", t!"p", t!"###", t!"h1", t!"h2", t!"h3", t!"h4", t!"h5", t!"h6"]

theorem all_allRe (U : Uni) (pre t : Str) (s : Caps) : ∃ l,
    allRe.all U ⟨pre, t⟩ s = (⟨t.reverse ++ pre, []⟩, (5, t) :: s) :: l := by
  obtain ⟨l, hl⟩ := star_greedy_head (U := U) (n := true) (it := []) (s := s) (w := t) (rest := []) (pre := pre)
    (by intro x _; rfl) (by simp)
  rw [List.append_nil] at hl
  refine ⟨(l.map (fun p => (p.1, (5, between ⟨pre, t⟩ p.1) :: p.2))).flatMap (fun p => Re.eot.all U p.1 p.2), ?_⟩
  simp only [allRe, all_seq]
  rw [show (Re.grp 5 (.star true (.set true []))).all U ⟨pre, t⟩ s =
    ((Re.star true (.set true [])).all U ⟨pre, t⟩ s).map (fun p => (p.1, (5, between ⟨pre, t⟩ p.1) :: p.2)) from rfl, hl]
  simp only [List.map_cons, List.flatMap_cons]
  have : Adv ⟨pre, t⟩ t ⟨t.reverse ++ pre, []⟩ := ⟨by simp, rfl⟩
  rw [this.between]
  rfl

set_option maxRecDepth 4000 in
theorem tagHead_all (b : Bool) (U : Uni) (t : Str) : ∀ tag ∈ plainTags b,
    ∃ s, (tagHead b).all U ⟨[], tag ++ (t!". " ++ t)⟩ [] = [(⟨(tag ++ t!". ").reverse, t⟩, s)] ∧
      alLookup 1 s = some tag ∧ alLookup 2 s = some [] ∧ alLookup 3 s = some [] ∧ alLookup 4 s = none := by
  have key : ∀ tag ∈ plainTags b, (tagHead b).all U ⟨[], tag ++ (t!". " ++ t)⟩ [] = [(⟨(tag ++ t!". ").reverse, t⟩,
      [(3, between ⟨('.' :: tag.reverse), ' ' :: t⟩ ⟨('.' :: tag.reverse), ' ' :: t⟩),
       (2, between ⟨tag.reverse, '.' :: ' ' :: t⟩ ⟨tag.reverse, '.' :: ' ' :: t⟩),
       (1, between ⟨[], tag ++ (t!". " ++ t)⟩ ⟨tag.reverse, '.' :: ' ' :: t⟩)])] := by
    intro tag h
    cases b
    · simp only [plainTags, Bool.false_eq_true, if_false, List.mem_cons, List.not_mem_nil, or_false] at h
      rcases h with h | h | h | h | h | h | h | h | h | h | h | h <;> subst h <;> kernel_rfl
    · simp only [plainTags, if_true, List.mem_cons, List.not_mem_nil, or_false] at h
      rcases h with h | h | h <;> subst h <;> kernel_rfl
  intro tag h
  refine ⟨_, key tag h, ?_, ?_, ?_, ?_⟩
  · have : Adv ⟨[], tag ++ (t!". " ++ t)⟩ tag ⟨tag.reverse, '.' :: ' ' :: t⟩ := ⟨by simp, by simp⟩
    rw [this.between]; rfl
  · simp [alLookup, (Adv.refl _).between]
  · simp [alLookup, (Adv.refl _).between]
  · simp [alLookup]

/-- What is recognised in a block `tag. t`. -/
theorem tag_captures (C : Ctx) (t : Str) {tag : Str} (h : tag ∈ plainTags C.cfg.lite) :
    ∃ m, (blockTagRe C).captures C.U (tag ++ (t!". " ++ t)) = some m ∧
      m.grp 1 = tag ∧ m.grp 2 = [] ∧ m.grp 3 = [] ∧ m.get? 4 = none ∧ m.grp 5 = t := by
  obtain ⟨s, h1, h2, h3, h4, h5⟩ := tagHead_all C.cfg.lite C.U t tag h
  obtain ⟨l, hl⟩ := all_allRe C.U (tag ++ t!". ").reverse t s
  have hm : (blockTagRe C).matchAt C.U ⟨[], tag ++ (t!". " ++ t)⟩ =
      some (⟨t.reverse ++ (tag ++ t!". ").reverse, []⟩, (5, t) :: s) := by
    rw [Re.matchAt_eq, blockTagRe, tagRe_all, h1, List.flatMap_cons, hl]
    rfl
  have hs := Re.search_hit hm
  refine ⟨_, by rw [Re.captures, hs], ?_, ?_, ?_, ?_, ?_⟩ <;>
    simp [Mat.grp, Mat.get?, alLookup, h2, h3, h4, h5]

end Rustextile
