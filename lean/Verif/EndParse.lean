import Verif.EndList

/-!
# Documents with endnotes
-/

namespace Rustextile

open Prog

/-- What a block does that leaves nothing. -/
structure Eats (C : Ctx) (P P' : PState → Prop) (src : Str) : Prop where
  lines : ∃ ls, ls ≠ [] ∧ (∀ l ∈ ls, Spec.RawLine l) ∧ src = Spec.join t!"\n" ls
  first : ∃ c u, src = c :: u ∧ isWs c = false
  run : ∀ σ : PState, P σ → σ.spanDepth + 1 ≤ C.cfg.maxSpanDepth → ∃ σ', EatTo C src σ σ' ∧ Grows C.cfg.uid σ σ' ∧ P' σ' ∧ σ'.refIndex ≤ σ.refIndex

/-- The blocks of a document, or of a part of it. -/
inductive Flow (C : Ctx) : (PState → Prop) → List (Str × Nat) → Nat → List (Str × Nat) → (PState → Prop) → Prop
  | nil {P : PState → Prop} : Flow C P [] 0 [] P
  | act {P P' Q : PState → Prop} {s h : Str} {n m k : Nat} {ss hs : List (Str × Nat)} : Act C P P' s n h → Flow C P' ss m hs Q →
    Flow C P ((s, k) :: ss) (n + m) ((h, k) :: hs) Q
  | eat {P P' Q : PState → Prop} {s : Str} {m k : Nat} {ss hs : List (Str × Nat)} : Eats C P P' s → Flow C P' ss m hs Q →
    Flow C P ((s, k) :: ss) m hs Q

theorem Flow.lines {C : Ctx} {P Q : PState → Prop} {ss hs : List (Str × Nat)} {n : Nat} (h : Flow C P ss n hs Q) :
    ∀ p ∈ ss, (∃ ls, ls ≠ [] ∧ (∀ l ∈ ls, Spec.RawLine l) ∧ p.1 = Spec.join t!"\n" ls) ∧ ∃ c u, p.1 = c :: u ∧ isWs c = false := by
  induction h with
  | nil => simp
  | act a _ ih =>
    intro p hp
    rcases List.mem_cons.1 hp with rfl | hp
    · exact ⟨a.lines, a.first⟩
    · exact ih p hp
  | eat a _ ih =>
    intro p hp
    rcases List.mem_cons.1 hp with rfl | hp
    · exact ⟨a.lines, a.first⟩
    · exact ih p hp

theorem Flow.ending {C : Ctx} {P Q : PState → Prop} {ss hs : List (Str × Nat)} {n : Nat} (h : Flow C P ss n hs Q) :
    ∀ p ∈ hs, p.1 ≠ [] ∧ p.1.getLast? ≠ some '\n' := by
  induction h with
  | nil => simp
  | act a _ ih =>
    intro p hp
    rcases List.mem_cons.1 hp with rfl | hp
    · exact a.ending
    · exact ih p hp
  | eat a _ ih => exact ih

inductive Reps (uid : Str) (τ : PState) : List (Str × Nat) → List (Str × Nat) → Prop
  | nil : Reps uid τ [] []
  | cons {q m : Str} {k : Nat} {qs ms : List (Str × Nat)} : Rep uid τ q m → Reps uid τ qs ms → Reps uid τ ((q, k) :: qs) ((m, k) :: ms)

theorem Reps.append {uid : Str} {τ : PState} {qs ms qs' ms' : List (Str × Nat)} (h : Reps uid τ qs ms) (h' : Reps uid τ qs' ms') :
    Reps uid τ (qs ++ qs') (ms ++ ms') := by
  induction h with
  | nil => exact h'
  | cons a _ ih => exact .cons a ih

theorem Reps.glue {uid : Str} {τ : PState} {qs ms : List (Str × Nat)} (h : Reps uid τ qs ms) : Rep uid τ (Spec.glue qs) (Spec.glue ms) := by
  induction h with
  | nil => exact Rep.nil
  | @cons q m k qs ms a hr ih =>
    cases hr with
    | nil => exact a
    | cons a' hr' =>
      rw [glue_cons (t := q) (by simp), glue_cons (t := m) (by simp)]
      have hn : Rep uid τ (nls (k + 2)) (nls (k + 2)) := by
        have := (Rep.nil (uid := uid) (σ := τ)).text (w := nls (k + 2)) (by simp [nls])
        simpa using this
      exact a.append (hn.append ih)

theorem Tidied.append {br : Str} {as bs as' bs' : List (Str × Nat)} (h : Tidied br as bs) (h' : Tidied br as' bs') : Tidied br (as ++ as') (bs ++ bs') := by
  induction h with
  | nil => exact h'
  | cons a _ ih => exact .cons a ih

structure FlowsTo (C : Ctx) (ps : List (Str × Nat)) (n : Nat) (σ σ' : PState) (qs mids hs : List (Str × Nat)) : Prop where
  flows : Flows C ps σ σ' qs
  grow : Grows C.cfg.uid σ σ'
  index : σ'.refIndex ≤ σ.refIndex + 2 * n
  rep : ∀ τ : PState, Agrees C.cfg.uid σ' τ → σ'.refIndex < 2 ^ 32 → Reps C.cfg.uid τ qs mids
  nolist : ∀ q ∈ qs, containsStr t!"<p>notelist" q.1 = false
  tidied : Tidied C.cfg.brTag mids hs

theorem Flow.run {C : Ctx} {P Q : PState → Prop} {ss hs : List (Str × Nat)} {n : Nat} (h : Flow C P ss n hs Q) :
    ∀ σ : PState, P σ → σ.spanDepth + 1 ≤ C.cfg.maxSpanDepth → ∃ σ' qs mids, FlowsTo C ss n σ σ' qs mids hs ∧ Q σ' := by
  induction h with
  | nil =>
    intro σ hP hd
    exact ⟨σ, [], [], ⟨.nil, (Grow.refl _ _).toGrows, by omega, fun _ _ _ => .nil, by simp, .nil⟩, hP⟩
  | @act P P' Q s h n m k ss hs a _ ih =>
    intro σ hP hd
    obtain ⟨σ1, q, mid, h1, h2, h3, h4, h5, h6, h7⟩ := a.run σ hP hd
    obtain ⟨σ2, qs, mids, r, hQ⟩ := ih σ1 h3 (by rw [h2.depth]; exact hd)
    refine ⟨σ2, (q, k) :: qs, (mid, k) :: mids, ⟨.step h1 r.flows, h2.trans r.grow, ?_, ?_, ?_, .cons h7 r.tidied⟩, hQ⟩
    · have := r.index; omega
    · intro τ g1 g2
      have hi := r.grow.index
      exact .cons (h5 τ (g1.before0 r.grow) (by omega)) (r.rep τ g1 g2)
    · intro x hx
      rcases List.mem_cons.1 hx with rfl | hx
      · exact h6
      · exact r.nolist x hx
  | @eat P P' Q s m k ss hs a _ ih =>
    intro σ hP hd
    obtain ⟨σ1, h1, h2, h3, h4⟩ := a.run σ hP hd
    obtain ⟨σ2, qs, mids, r, hQ⟩ := ih σ1 h3 (by rw [h2.depth]; exact hd)
    refine ⟨σ2, qs, mids, ⟨.eat h1 r.flows, h2.trans r.grow, ?_, r.rep, r.nolist, r.tidied⟩, hQ⟩
    have := r.index; omega

/-! ## The place of the list -/

theorem notelist_prose {U : Uni} (hU : UniOk U) : Spec.Prose U.isLu Spec.noteListSource := by
  refine ⟨by decide, ?_, ?_, ?_, ?_⟩
  · intro a x y z b e h
    have hx : x ∈ Spec.noteListSource := by rw [e]; simp
    have h1 := (by decide : ∀ c ∈ Spec.noteListSource, c.toNat < 128 ∧ isUp c = false) x hx
    have := h.1
    rw [hU.upper x h1.1, h1.2] at this
    cases this
  · intro a b e
    have := containsStr_iff (n := t!"...") (s := Spec.noteListSource) |>.2 ⟨a, b, by rw [e]; simp⟩
    revert this; decide
  · intro a d x b hd hx
    have h1 : ∀ c ∈ Spec.noteListSource, Spec.isDecimal c = false := by decide
    constructor <;> intro e <;> rw [h1 d (by rw [e]; simp)] at hd <;> cases hd
  · intro a c b e
    have : '\n' ∈ Spec.noteListSource := by rw [e]; simp
    exact absurd this (by decide)

theorem notelist_ok {U : Uni} (hU : UniOk U) : Spec.EnText.Ok U.isLu ⟨Spec.noteListSource, []⟩ := by
  refine ⟨?_, ⟨'n', _, rfl, by decide, by decide⟩, by simp⟩
  intro p hp
  simp [Spec.EnText.texts] at hp
  subst hp
  refine ⟨notelist_prose hU, ?_⟩
  rintro ⟨u, c, e, hc⟩
  have := congrArg List.getLast? e
  rw [List.getLast?_concat] at this
  rw [show Spec.noteListSource.getLast? = some '.' from rfl] at this
  simp at this
  subst this
  rcases hc with hc | hc <;> cases hc

theorem notelist_noBlock (dig : Char → Bool) (lite : Bool) : Spec.NoBlockStart dig lite Spec.noteListSource := by
  intro w c u e hc hw
  have key : ∀ w : Str, w ∈ [t!"bq", t!"bc", t!"notextile", t!"pre", t!"p", t!"###", t!"h1", t!"h2", t!"h3", t!"h4", t!"h5", t!"h6"] →
      w ++ c :: u ≠ Spec.noteListSource := by
    intro w hw
    simp only [List.mem_cons, List.not_mem_nil, or_false] at hw
    rcases hw with rfl | rfl | rfl | rfl | rfl | rfl | rfl | rfl | rfl | rfl | rfl | rfl <;> simp [Spec.noteListSource, Spec.notelistWord]
  unfold Spec.blockWord at hw
  split at hw
  · refine key w ?_ e.symm
    simp only [Spec.liteWord, List.mem_cons, List.not_mem_nil, or_false] at hw
    rcases hw with rfl | rfl | rfl <;> simp
  · rcases hw with hw | ⟨d, ds, rfl, -⟩
    · exact key w hw e.symm
    · simp [Spec.noteListSource, Spec.notelistWord] at e

/-- The block `notelist.` is a paragraph for the block parser. -/
theorem notelist_step {C : Ctx} {base : Str} (D : DocCtx C base) (hp : C.cfg.linkPrefix = base ++ t!"-") {N : Spec.Numbers} {B : Spec.Book} {σ : PState}
    (hσ : Num N σ ∧ BookState base B σ) :
    ∃ σ1, StepTo C Spec.noteListSource σ σ1 listMark ∧ (Num N σ1 ∧ BookState base B σ1) ∧ Grows C.cfg.uid σ σ1 ∧ σ1.refIndex ≤ σ.refIndex := by
  have hok := notelist_ok D.uni
  have hf := enOk_of hok
  obtain ⟨σ', hm, g2, g3⟩ := graf_en D hp hf (enLead_ne hok) hσ.2
  have hb := en_begins (C := C) D.uni hok
  simp only [Spec.EnText.source, List.flatMap_nil, List.append_nil] at hb
  have hraw := hasRawText_en (B := B) D.uni D.plain hf hok.first
  simp only [enRefs, enPairs, List.flatMap_nil, List.append_nil, weave_nil] at hm hraw
  refine ⟨σ', ?_, ⟨Num.starts hσ.1 g3, g2⟩, hm.grow, by simpa using hm.index⟩
  have ht : t!"p" ∈ brTags := by decide
  have e : listMark = openTagA t!"p" [] ++ (brk C.cfg.brTag Spec.noteListSource ++ closeTag t!"p") := by
    rw [show brk C.cfg.brTag Spec.noteListSource = Spec.noteListSource from rfl]; rfl
  rw [e]
  refine step_of_body (o := openTagA t!"p" [] ++ (Spec.noteListSource ++ closeTag t!"p")) (trim_ne (c := 'n') (by decide)) ?_ ?_
  · have := br_woven (C := C) (a := []) (z := []) (tag := t!"p") (att := []) ht (List.not_mem_nil) (brFree_open (brFree_start _ ht) (List.not_mem_nil)) hm.woven hm.lined
      (.of_lt (by simp)) (.of_lt (by simp)) rfl rfl (by decide)
    simpa using this
  · intro s h1 h2 h3 h4 h5
    rw [blockBody_anonymous (tag_none_of (notelist_noBlock _ _)) (.inr ⟨rfl, hb.divider⟩), h2, h3, h4, openTagA_nil]
    refine ⟨{ s with tag := t!"p", atts := [], cite := none, eat := false, lastClosing := [] }, true,
      (runs_blockNew (by decide) hb.ne hb.note hm.runs).bind ?_, ?_⟩
    · simp only [hraw]
      have : Spec.noteListSource.isEmpty = false := rfl
      simp only [this, Bool.not_true, Bool.and_false, Bool.or_false, Bool.false_eq_true, if_false]
      rw [List.append_assoc]
      exact Runs.pure _ _
    · exact ⟨h1, rfl, rfl, rfl, rfl⟩

/-! ## The blocks -/

/-- The block as it is seen. -/
def enBlockSeen (r : Bool) : Spec.EnBlock → Str
  | .other b => imBlockSeen r b
  | b => b.source

theorem enc_text {U : Uni} {w : Str} {rs : List (Str × Str)} (h : EnOk U w rs) : encodeHtml (w ++ enRefs rs) false false = w ++ enRefs rs := by
  rw [enc_append, enc_prose h.lead.1]
  congr 1
  have key : ∀ rs : List (Str × Str), (∀ r ∈ rs, (Spec.Prose U.isLu r.2 ∧ ¬ Spec.EndsInSpace r.2) ∧ Spec.isLabel r.1) → encodeHtml (enRefs rs) false false = enRefs rs := by
    intro rs
    induction rs with
    | nil => intro _; rfl
    | cons r rs ih =>
      intro h
      have h1 := h r (by simp)
      rw [show enRefs (r :: rs) = t!"[#" ++ (r.1 ++ (t!"]" ++ (r.2 ++ enRefs rs))) by simp [enRefs_cons], enc_append, enc_append, enc_append, enc_append,
        enc_prose h1.1.1, ih (fun x hx => h x (by simp [hx]))]
      congr 2
      refine enc_id ?_
      intro c hc hm
      exact (by decide +kernel : ∀ c ∈ asciiAlnum, c ∉ t!"&<>\"'") c (label_mem (h1.2.2 c hc)) hm
  exact key rs (fun r hr => ⟨h.texts r hr, h.labels r hr⟩)

theorem defSource_eq (l : Str) (back : Option Spec.Back) (gs : List Spec.Group) (t : Str) :
    (Spec.EnBlock.define l back gs t).source = defSource l back gs t := by
  simp [Spec.EnBlock.source, defSource]

theorem group_source (gs : List Spec.Group) : Spec.Atts.source { groups := gs } = gs.flatMap Spec.Group.source := by
  simp [Spec.Atts.source, Spec.Atts.marks]

theorem en_seen {C : Ctx} (hU : UniOk C.U) {b : Spec.EnBlock} (h : b.Ok C.U.isLu C.U.isNd C.cfg.lite C.cfg.restricted) :
    (if C.cfg.restricted then encodeHtml b.source false false else b.source) = enBlockSeen C.cfg.restricted b := by
  cases b with
  | other b => exact imBlock_seen hU h
  | para t =>
    simp only [enBlockSeen, Spec.EnBlock.source]
    split
    · exact enc_text (enOk_of h.1)
    · rfl
  | styled tag a t =>
    obtain ⟨h1, h2, h3, h4, h5, h6⟩ := h
    simp only [enBlockSeen, Spec.EnBlock.source]
    split
    · rename_i hr
      rw [hr] at h3
      rw [enc_append, enc_append, enc_append, (tagged_chars tag (tagged_mem h5).1).2.2.1, enc_atts h2 h3, enSource_eq, enc_text (enOk_of h1)]
      rfl
    · rfl
  | define l back gs t =>
    obtain ⟨h1, h2, h3, h4⟩ := h
    simp only [enBlockSeen, Spec.EnBlock.source]
    split
    · rename_i hr
      rw [hr] at h3
      have e1 := enc_atts h2 h3
      rw [group_source] at e1
      have e2 : encodeHtml l false false = l := enc_id (fun c hc hm =>
        (by decide +kernel : ∀ c ∈ asciiAlnum, c ∉ t!"&<>\"'") c (label_mem (h1.2 c hc)) hm)
      have e3 : encodeHtml (back.toList.map Spec.Back.mark) false false = back.toList.map Spec.Back.mark := by
        cases back with
        | none => rfl
        | some b => cases b <;> rfl
      rw [enc_append, enc_append, enc_append, enc_append, enc_append, enc_prose h4.prose, e1, e2, e3]
      rfl
    · rfl

theorem def_lines {U : Uni} {l : Str} (hl : Spec.isLabel l) (back : Option Spec.Back) {gs : List Spec.Group} (hg : Spec.Atts.Ok { groups := gs })
    {t : Str} (ht : Spec.DefText U.isLu t) :
    (∃ ls, ls ≠ [] ∧ (∀ l ∈ ls, Spec.RawLine l) ∧ defSource l back gs t = Spec.join t!"\n" ls) ∧ ∃ c u, defSource l back gs t = c :: u ∧ isWs c = false := by
  obtain ⟨a1, a2⟩ := atts_nonl hg
  rw [group_source] at a1 a2
  have hb : ∀ c ∈ back.toList.map Spec.Back.mark, c ∈ t!"*^!" := by
    cases back with
    | none => simp
    | some b => cases b <;> simp [Spec.Back.mark]
  have key : ∀ d : Char, d ∉ t!"note#. *^!" → d ∉ asciiAlnum → d ∉ gs.flatMap Spec.Group.source →
      d ∉ t!"note#" ++ (l ++ (back.toList.map Spec.Back.mark ++ (gs.flatMap Spec.Group.source ++ t!". "))) := by
    intro d h1 h2 h3 hm
    simp only [List.mem_append] at hm
    rcases hm with hm | hm | hm | hm | hm
    · exact h1 ((by decide : ∀ c ∈ t!"note#", c ∈ t!"note#. *^!") d hm)
    · exact label_not h2 hl hm
    · exact h1 ((by decide : ∀ c ∈ t!"*^!", c ∈ t!"note#. *^!") d (hb d hm))
    · exact h3 hm
    · exact h1 ((by decide : ∀ c ∈ t!". ", c ∈ t!"note#. *^!") d hm)
  have := en_tagLines (def_text ht) (p := t!"note#" ++ (l ++ (back.toList.map Spec.Back.mark ++ (gs.flatMap Spec.Group.source ++ t!". "))))
    ⟨key _ (by decide) (by decide +kernel) a1, key _ (by decide) (by decide +kernel) a2⟩ ⟨'n', _, rfl, by decide⟩
  rwa [show t!"note#" ++ (l ++ (back.toList.map Spec.Back.mark ++ (gs.flatMap Spec.Group.source ++ t!". "))) ++ Spec.EnText.source ⟨t, []⟩ = defSource l back gs t by
    simp [Spec.EnText.source, defSource]] at this

theorem eats_define {C : Ctx} {base : Str} (D : DocCtx C base) (hp : C.cfg.linkPrefix = base ++ t!"-") {l t : Str} (hl : Spec.isLabel l) {back : Option Spec.Back}
    {gs : List Spec.Group} (hg : Spec.Atts.Ok { groups := gs }) (ht : Spec.DefText C.U.isLu t) (N : Spec.Numbers) (B : Spec.Book) :
    Eats C (fun σ => Num N σ ∧ BookState base B σ)
      (fun σ => Num N σ ∧ BookState base (B.define l ⟨back, Spec.Atts.html C.cfg.restricted { groups := gs }, t⟩) σ) (defSource l back gs t) := by
  obtain ⟨h1, h2⟩ := def_lines (U := C.U) hl back hg ht
  refine ⟨h1, h2, ?_⟩
  intro σ hσ _
  obtain ⟨σ1, g1, g2, g3, g4, g5⟩ := def_step D hp hσ.2 hl (back := back) hg ht
  exact ⟨σ1, g1, g3, ⟨Num.starts hσ.1 g5, g2⟩, g4⟩

section
variable {C : Ctx} {base : Str} (D : DocCtx C base) (hp : C.cfg.linkPrefix = base ++ t!"-") (hz : C.cfg.getSizes = false) (hno : C.cfg.noimage = false)
  {ok : Char → Prop} (ha : ∀ c, c.toNat < 128 → ok c) (hL : Lowers C.U ok)
include D hp hz hno ha hL

theorem en_flow : ∀ {ds : List (Spec.EnBlock × Nat)} (_ : ∀ d ∈ ds, d.1.Ok C.U.isLu C.U.isNd C.cfg.lite C.cfg.restricted)
    (_ : ∀ d ∈ ds, ∀ c ∈ d.1.chars, ok c)
    (_ : ∀ d ∈ ds, d.1.Resolved (Spec.Resolves C.E.urlParse C.E.urlJoin C.cfg.restricted) (Spec.Reads C.E.urlParse C.E.urlJoin) C.cfg.rel)
    (_ : ∀ d ∈ ds, ¬ C.cfg.uid <:+: d.1.source) (_ : ∀ d ∈ ds, ¬ C.cfg.uid <:+: enBlockSeen C.cfg.restricted d.1) (N : Spec.Numbers) (B : Spec.Book),
    Flow C (fun σ => Num N σ ∧ BookState base B σ) (ds.map (fun d => (enBlockSeen C.cfg.restricted d.1, d.2))) (ds.map (fun d => d.1.marks)).sum
      (Spec.enHtml C.cfg.brTag C.cfg.restricted (useAlignClass C.cfg) base N B ds)
      (fun σ => Num (Spec.enNumbers C.cfg.restricted N ds) σ ∧ BookState base (Spec.enBook C.cfg.restricted B ds) σ) := by
  intro ds
  induction ds with
  | nil => intro _ _ _ _ _ N B; exact .nil
  | cons d ds ih =>
    intro h hc hR hs ht N B
    have ih := ih (fun x hx => h x (by simp [hx])) (fun x hx => hc x (by simp [hx])) (fun x hx => hR x (by simp [hx])) (fun x hx => hs x (by simp [hx]))
      (fun x hx => ht x (by simp [hx])) (d.1.numbers N C.cfg.restricted) (d.1.book B C.cfg.restricted)
    have h := h d (by simp)
    have hc := hc d (by simp)
    have hR := hR d (by simp)
    have hs := hs d (by simp)
    have ht := ht d (by simp)
    obtain ⟨b, k⟩ := d
    cases b with
    | other b => exact .act (act_enOther D hp hz hno ha hL h hc hR hs ht N B) ih
    | para t => exact .act (act_enPara D hp h.1 h.2.1 h.2.2 N B) ih
    | styled tag a t =>
      obtain ⟨h1, h2, h3, h4, h5, h6⟩ := h
      exact .act (act_enStyled D hp h1 h2 h4 h5 h6 hs N B) ih
    | define l back gs t =>
      obtain ⟨h1, h2, h3, h4⟩ := h
      rw [List.map_cons, List.map_cons, List.sum_cons, show Spec.EnBlock.marks (Spec.EnBlock.define l back gs t, k).1 = 0 from rfl, Nat.zero_add]
      refine .eat ?_ ih
      have := eats_define D hp h1 (back := back) h2 h4 N B
      rwa [← defSource_eq] at this

theorem en_fine : ∀ {ds : List (Spec.EnBlock × Nat)} (_ : ∀ d ∈ ds, d.1.Ok C.U.isLu C.U.isNd C.cfg.lite C.cfg.restricted)
    (_ : ∀ d ∈ ds, ¬ C.cfg.uid <:+: d.1.source) {B : Spec.Book}, BookFine base B → BookFine base (Spec.enBook C.cfg.restricted B ds) := by
  intro ds
  induction ds with
  | nil => intro _ _ B hB; exact hB
  | cons d ds ih =>
    intro h hs B hB
    refine ih (fun x hx => h x (by simp [hx])) (fun x hx => hs x (by simp [hx])) (B := d.1.book B C.cfg.restricted) ?_
    have h := h d (by simp)
    have hs := hs d (by simp)
    obtain ⟨b, k⟩ := d
    cases b with
    | other b => exact ⟨hB.numbers, hB.notes⟩
    | para t => exact hB.refs h.1.labels
    | styled tag a t => exact hB.refs h.1.labels
    | define l back gs t =>
      obtain ⟨h1, h2, h3, h4⟩ := h
      refine hB.define ⟨atts_tagText D.plain h2 ?_ _, prose_nochar h4.prose (by decide) (by decide), prose_nochar h4.prose (by decide) (by decide)⟩
      rw [group_source, ← D.uid]
      refine contains_of_not (fun hi => hs (hi.trans ?_))
      exact ⟨t!"note#" ++ (l ++ back.toList.map Spec.Back.mark), t!". " ++ t, by simp [Spec.EnBlock.source]⟩

end

/-! ## The whole conversion -/

/-- The document as it is seen. -/
def enSeen (r : Bool) (ds : List (Spec.EnBlock × Nat)) : List (Str × Nat) := ds.map (fun d => (enBlockSeen r d.1, d.2))

theorem rep_of_settled {base w : Str} (h : Settled base w) (br : Str) : Turns (Spec.tidyBreaks br) w w := by
  intro r _
  exact tidyBreaks_free h.2

theorem list_end (base : Str) (E : Spec.Ends) : E.list base ≠ [] ∧ (E.list base).getLast? ≠ some '\n' := by
  have e : ∃ u, E.list base = u ++ ['>'] := by
    refine ⟨['<'] ++ (Spec.olTag ++ ([] ++ (['>'] ++ (('\n' :: (Spec.join ['\n'] (E.listed.map (fun n => '\t' :: '\t' :: n.item base)) ++ ['\n', '\t'])) ++
      (['<', '/'] ++ Spec.olTag))))), ?_⟩
    simp [Spec.Ends.list, Spec.elementWith]
  obtain ⟨u, e⟩ := e
  rw [e, List.getLast?_concat]
  exact ⟨by simp, by decide⟩

/-- What `parse` makes of documents with endnotes. -/
theorem parse_ends {E : Env} {fuel : Nat} {cfg : Cfg} {base : Str} (D : DocCtx ⟨E, cfg, fuel⟩ base) (hp : cfg.linkPrefix = base ++ t!"-")
    (hz : cfg.getSizes = false) (hno : cfg.noimage = false)
    (hbt : cfg.blockTags = true) (hsan : cfg.sanitizer = none) (hdep : 1 ≤ cfg.maxSpanDepth) {ok : Char → Prop}
    (ha : ∀ c, c.toNat < 128 → ok c) (hL : Lowers E.U ok) {d : Spec.EnDoc} (h : d.Ok E.U.isLu E.U.isNd cfg.lite cfg.restricted)
    (hc : ∀ b ∈ d.blocks, ∀ c ∈ b.1.chars, ok c)
    (hR : ∀ b ∈ d.blocks, b.1.Resolved (Spec.Resolves E.urlParse E.urlJoin cfg.restricted) (Spec.Reads E.urlParse E.urlJoin) cfg.rel)
    (htok : ¬ cfg.uid <:+: d.source) (hn : 2 * d.marks < 2 ^ 32) :
    parseFresh E fuel cfg d.source = .ok (d.html cfg.brTag cfg.restricted (useAlignClass cfg) base) := by
  -- the text that the block parser gets
  have hseen : ∀ ps : List (Str × Nat), ∀ qs : List (Str × Nat),
      (qs = ps.map (fun p => ((if cfg.restricted then encodeHtml p.1 false false else p.1), p.2))) →
      (if cfg.restricted then encodeHtml (Spec.glue ps) false false else Spec.glue ps) = Spec.glue qs := by
    rintro ps qs rfl
    split
    · rw [enc_glue]
    · congr 1
      exact (List.map_id' _).symm
  have hpiece : ∀ ds : List (Spec.EnBlock × Nat), (∀ b ∈ ds, b ∈ d.blocks) →
      enSeen cfg.restricted ds = (Spec.enPieces ds).map (fun p => ((if cfg.restricted then encodeHtml p.1 false false else p.1), p.2)) := by
    intro ds hds
    simp only [Spec.enPieces, enSeen, List.map_map]
    apply List.map_congr_left
    intro b hb
    simp only [Function.comp]
    exact congrArg (fun x => (x, b.2)) (en_seen (C := ⟨E, cfg, fuel⟩) D.uni (h.blocks b (hds b hb))).symm
  -- the token is in none of the blocks
  have hclean : ∀ ps qs : List (Str × Nat), ¬ cfg.uid <:+: Spec.glue ps → (if cfg.restricted then encodeHtml (Spec.glue ps) false false else Spec.glue ps) = Spec.glue qs →
      (∀ p ∈ ps, ¬ cfg.uid <:+: p.1) ∧ ∀ q ∈ qs, ¬ cfg.uid <:+: q.1 := by
    intro ps qs ht e
    refine ⟨fun p hp hi => ht (hi.trans (glue_infix hp)), ?_⟩
    have hq : containsStr cfg.uid (Spec.glue qs) = false := by
      have h0 := contains_of_not ht
      rw [← e]
      split
      · obtain ⟨c1, c2, -, -, -, -, c7, -⟩ := uid_chars D.plain
        have hu : cfg.uid = uidOf base := D.uid
        rw [hu] at h0 ⊢
        exact containsStr_enc c1 c2 c7 h0
      · exact h0
    rintro q hq' ⟨a, b, e'⟩
    have := clean_of_infix hq (glue_infix hq')
    rw [containsStr_iff.2 ⟨a, b, by rw [← e']; simp⟩] at this
    cases this
  have hB0 : BookFine base ⟨⟨[], 0⟩, ⟨[], []⟩⟩ := ⟨rfl, by simp⟩
  have hS0 : Num (fun _ => 1) ({} : PState) ∧ BookState base ⟨⟨[], 0⟩, ⟨[], []⟩⟩ ({} : PState) :=
    ⟨fun _ => rfl, ⟨fun _ => rfl, rfl, ⟨by rintro l n ⟨⟩, by rintro l _ ⟨⟩, fun _ _ _ => rfl, trivial, List.nodup_nil, rfl, rfl⟩⟩⟩
  have hfirst : ∀ {ps : List (Str × Nat)}, ps ≠ [] → (∀ p ∈ ps, ∃ c u, p.1 = c :: u ∧ isWs c = false) → ∃ c u, Spec.glue ps = c :: u ∧ isWs c = false := by
    intro ps hne hps
    obtain ⟨p, ps, rfl⟩ := List.exists_cons_of_ne_nil hne
    obtain ⟨c, u, e, hc⟩ := hps p (by simp)
    obtain ⟨p1, p2⟩ := p
    simp only at e
    subst e
    cases ps with
    | nil => exact ⟨c, u, rfl, hc⟩
    | cons q ps => exact ⟨c, _, by rw [glue_cons (by simp)]; rfl, hc⟩
  -- the last steps
  have hlast : ∀ {hs : List (Str × Nat)} {mids : List (Str × Nat)}, Tidied cfg.brTag mids hs → (∀ p ∈ hs, p.1 ≠ [] ∧ p.1.getLast? ≠ some '\n') →
      finish ⟨E, cfg, fuel⟩ (Spec.glue mids) = Spec.glue hs := by
    intro hs mids ht he
    rw [finish_eq, show (⟨E, cfg, fuel⟩ : Ctx).cfg.sanitizer = none from hsan]
    simp only
    rw [ht.glue, ← dropFinalNewlines_eq]
    apply trimEndP_of_last
    intro c hc
    have := glue_last he
    rw [hc] at this
    simpa using this
  obtain ⟨before, list⟩ := d
  cases list with
  | none =>
    have hbl : Spec.EnDoc.blocks ⟨before, none⟩ = before := by simp [Spec.EnDoc.blocks]
    have hsrc : Spec.EnDoc.source ⟨before, none⟩ = Spec.glue (Spec.enPieces before) := by simp [Spec.EnDoc.source]
    rw [hbl] at hc hR hpiece
    rw [hsrc] at htok ⊢
    have hb := h.blocks
    rw [hbl] at hb
    have hne : before ≠ [] := by have := h.nonempty; rwa [hbl] at this
    have e1 := hseen _ _ (hpiece before (fun _ hb => hb))
    obtain ⟨t1, t2⟩ := hclean _ _ htok e1
    have hfl := en_flow D hp hz hno ha hL (ds := before) hb hc hR (fun b hb => t1 (b.1.source, b.2) (List.mem_map.2 ⟨b, hb, rfl⟩))
      (fun b hb => t2 (enBlockSeen cfg.restricted b.1, b.2) (List.mem_map.2 ⟨b, hb, rfl⟩)) (fun _ => 1) ⟨⟨[], 0⟩, ⟨[], []⟩⟩
    have hsne : enSeen cfg.restricted before ≠ [] := by simpa [enSeen] using hne
    obtain ⟨p1, p2, p3⟩ := prepared D (fun p hp => (hfl.lines p hp).1) (hfirst hsne (fun p hp => (hfl.lines p hp).2)) e1 htok
    obtain ⟨σ, qs, mids, r, -⟩ := hfl.run {} hS0 hdep
    refine parse_flows hbt p2 p1 r.flows hsne p3 (place_none (not_contains_glue (by decide) (by simp) r.nolist))
      (runs_tags D (ShelfInv.ok (σ := { σ with aux := splitNotes σ.aux }) (r.grow.inv (ShelfInv.empty rfl))) (by rw [(splitNotes_cache σ.aux).2]; exact r.grow.urls)
        (r.rep { σ with aux := splitNotes σ.aux } (fun _ _ => ⟨rfl, rfl⟩) ?_).glue) ?_
    · have := r.index
      refine Nat.lt_of_le_of_lt this ?_
      simp only [Spec.EnDoc.marks, hbl] at hn
      simpa using hn
    · rw [hlast r.tidied hfl.ending]
      simp [Spec.EnDoc.html]
  | some l =>
    obtain ⟨k, after⟩ := l
    have hbl : Spec.EnDoc.blocks ⟨before, some (k, after)⟩ = before ++ after := rfl
    have hsrc : Spec.EnDoc.source ⟨before, some (k, after)⟩ = Spec.glue (Spec.enPieces before ++ (Spec.noteListSource, k) :: Spec.enPieces after) := rfl
    rw [hbl] at hc hR hpiece
    rw [hsrc] at htok ⊢
    have hb := h.blocks
    rw [hbl] at hb
    have e0 : (if cfg.restricted then encodeHtml Spec.noteListSource false false else Spec.noteListSource) = Spec.noteListSource := by
      split <;> rfl
    have e1 := hseen (Spec.enPieces before ++ (Spec.noteListSource, k) :: Spec.enPieces after)
      (enSeen cfg.restricted before ++ (Spec.noteListSource, k) :: enSeen cfg.restricted after) (by
        rw [List.map_append, List.map_cons, hpiece before (by simp; exact fun a b hb => .inl hb), hpiece after (by simp; exact fun a b hb => .inr hb), e0])
    obtain ⟨t1, t2⟩ := hclean _ _ htok e1
    have s1 : ∀ b ∈ before ++ after, ¬ cfg.uid <:+: b.1.source := by
      intro b hb
      refine t1 (b.1.source, b.2) ?_
      rcases List.mem_append.1 hb with hb | hb
      · exact List.mem_append.2 (.inl (List.mem_map.2 ⟨b, hb, rfl⟩))
      · exact List.mem_append.2 (.inr (List.mem_cons_of_mem _ (List.mem_map.2 ⟨b, hb, rfl⟩)))
    have s2 : ∀ b ∈ before ++ after, ¬ cfg.uid <:+: enBlockSeen cfg.restricted b.1 := by
      intro b hb
      refine t2 (enBlockSeen cfg.restricted b.1, b.2) ?_
      rcases List.mem_append.1 hb with hb | hb
      · exact List.mem_append.2 (.inl (List.mem_map.2 ⟨b, hb, rfl⟩))
      · exact List.mem_append.2 (.inr (List.mem_cons_of_mem _ (List.mem_map.2 ⟨b, hb, rfl⟩)))
    have i1 : ∀ {b}, b ∈ before → b ∈ before ++ after := fun hb => List.mem_append.2 (.inl hb)
    have i2 : ∀ {b}, b ∈ after → b ∈ before ++ after := fun hb => List.mem_append.2 (.inr hb)
    have hf1 := en_flow D hp hz hno ha hL (ds := before) (fun b h => hb b (i1 h)) (fun b h => hc b (i1 h)) (fun b h => hR b (i1 h))
      (fun b h => s1 b (i1 h)) (fun b h => s2 b (i1 h)) (fun _ => 1) ⟨⟨[], 0⟩, ⟨[], []⟩⟩
    have hf2 := en_flow D hp hz hno ha hL (ds := after) (fun b h => hb b (i2 h)) (fun b h => hc b (i2 h)) (fun b h => hR b (i2 h))
      (fun b h => s1 b (i2 h)) (fun b h => s2 b (i2 h)) (Spec.enNumbers cfg.restricted (fun _ => 1) before) (Spec.enBook cfg.restricted ⟨⟨[], 0⟩, ⟨[], []⟩⟩ before)
    have hbook : Spec.EnDoc.book cfg.restricted ⟨before, some (k, after)⟩ =
        Spec.enBook cfg.restricted (Spec.enBook cfg.restricted ⟨⟨[], 0⟩, ⟨[], []⟩⟩ before) after := by
      simp [Spec.EnDoc.book, hbl, Spec.enBook]
    have hfine := en_fine D hp hz hno ha hL (ds := before ++ after) hb s1 hB0
    have hbook' : Spec.enBook cfg.restricted ⟨⟨[], 0⟩, ⟨[], []⟩⟩ (before ++ after) =
        Spec.enBook cfg.restricted (Spec.enBook cfg.restricted ⟨⟨[], 0⟩, ⟨[], []⟩⟩ before) after := by
      simp [Spec.enBook]
    rw [hbook'] at hfine
    have hit := h.items rfl
    have hle := h.letters rfl
    rw [hbook] at hit hle
    have hlines : ∀ p ∈ enSeen cfg.restricted before ++ (Spec.noteListSource, k) :: enSeen cfg.restricted after,
        (∃ ls, ls ≠ [] ∧ (∀ l ∈ ls, Spec.RawLine l) ∧ p.1 = Spec.join t!"\n" ls) ∧ ∃ c u, p.1 = c :: u ∧ isWs c = false := by
      intro p hp
      rcases List.mem_append.1 hp with hp | hp
      · exact hf1.lines p hp
      · rcases List.mem_cons.1 hp with rfl | hp
        · have := en_lines (notelist_ok D.uni)
          simp only [Spec.EnText.source, List.flatMap_nil, List.append_nil] at this
          exact ⟨this, 'n', _, rfl, by decide⟩
        · exact hf2.lines p hp
    obtain ⟨p1, p2, p3⟩ := prepared D (fun p hp => (hlines p hp).1) (hfirst (by simp) (fun p hp => (hlines p hp).2)) e1 htok
    obtain ⟨σ1, q1, m1, r1, hS1⟩ := hf1.run {} hS0 hdep
    obtain ⟨σ2, st, hS2, g2, n2⟩ := notelist_step D hp hS1
    obtain ⟨σ3, q3, m3, r3, hS3⟩ := hf2.run σ2 hS2 (by rw [g2.depth, r1.grow.depth]; exact hdep)
    obtain ⟨a, ha', hpl⟩ := place_list (C := ⟨E, cfg, fuel⟩) hS3.2 hfine hit hle (k := k) r1.nolist r3.nolist
    have hset := settled_list D.plain hfine.notes hle
    have hgrow := (r1.grow.trans g2).trans r3.grow
    have hidx : σ3.refIndex < 2 ^ 32 := by
      have x1 := r1.index
      have x3 := r3.index
      simp only [Spec.EnDoc.marks, hbl, List.map_append, List.sum_append] at hn
      have x0 : ({} : PState).refIndex = 0 := rfl
      omega
    have hag : Agrees cfg.uid σ3 { σ3 with aux := a } := fun _ _ => ⟨rfl, rfl⟩
    refine parse_flows hbt p2 p1 (r1.flows.append (.step st r3.flows)) (by simp) p3 hpl
      (runs_tags D (ShelfInv.ok (σ := { σ3 with aux := a }) (hgrow.inv (ShelfInv.empty rfl))) (by rw [ha']; exact hgrow.urls)
        (((r1.rep { σ3 with aux := a } ((hag.before0 r3.grow).before0 g2) ?_).append (.cons ?_ (r3.rep _ hag hidx))).glue)) ?_ (t2 := Spec.glue (m1 ++ (Spec.Ends.list base (Spec.enBook cfg.restricted (Spec.enBook cfg.restricted ⟨⟨[], 0⟩, ⟨[], []⟩⟩ before) after).ends, k) :: m3))
    · have x1 := g2.index
      have x3 := r3.grow.index
      omega
    · have := hset.1 { σ3 with aux := a }
      rwa [← show cfg.uid = uidOf base from D.uid] at this
    · rw [hlast (hs := Spec.enHtml cfg.brTag cfg.restricted (useAlignClass cfg) base (fun _ => 1) ⟨⟨[], 0⟩, ⟨[], []⟩⟩ before ++
        (Spec.Ends.list base (Spec.enBook cfg.restricted (Spec.enBook cfg.restricted ⟨⟨[], 0⟩, ⟨[], []⟩⟩ before) after).ends, k) ::
          Spec.enHtml cfg.brTag cfg.restricted (useAlignClass cfg) base (Spec.enNumbers cfg.restricted (fun _ => 1) before)
            (Spec.enBook cfg.restricted ⟨⟨[], 0⟩, ⟨[], []⟩⟩ before) after)
        (r1.tidied.append (.cons (rep_of_settled hset _) r3.tidied)) ?_]
      · simp only [Spec.EnDoc.html, hbook]
      · intro p hp
        rcases List.mem_append.1 hp with hp | hp
        · exact hf1.ending p hp
        · rcases List.mem_cons.1 hp with rfl | hp
          · exact list_end _ _
          · exact hf2.ending p hp

end Rustextile
