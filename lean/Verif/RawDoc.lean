import Verif.SpecRaw
import Verif.AnchorDoc

/-!
# Documents with HTML rules and images and indented texts
-/

namespace Rustextile

open Prog

/-! ## Documents whose blocks can start with a space -/

/-- As `Act`, but the first character of the text can be a space. -/
structure Move (C : Ctx) (P P' : PState → Prop) (src : Str) (n : Nat) (h : Str) : Prop where
  lines : ∃ ls, ls ≠ [] ∧ (∀ l ∈ ls, Spec.RawLine l) ∧ src = Spec.join t!"\n" ls
  run : ∀ σ : PState, P σ → σ.spanDepth + 1 ≤ C.cfg.maxSpanDepth → ∃ σ' q mid, StepTo C src σ σ' q ∧ Grows C.cfg.uid σ σ' ∧ P' σ' ∧
    σ'.refIndex ≤ σ.refIndex + 2 * n ∧
    (∀ τ : PState, Agrees C.cfg.uid σ' τ → σ'.refIndex < 2 ^ 32 → Rep C.cfg.uid τ q mid) ∧
    containsStr t!"<p>notelist" q = false ∧ Turns (Spec.tidyBreaks C.cfg.brTag) mid h
  ending : h ≠ [] ∧ h.getLast? ≠ some '\n'

theorem Act.move {C : Ctx} {P P' : PState → Prop} {src h : Str} {n : Nat} (a : Act C P P' src n h) : Move C P P' src n h := ⟨a.lines, a.run, a.ending⟩

inductive Moves (C : Ctx) : (PState → Prop) → List (Str × Nat) → Nat → List (Str × Nat) → Prop
  | one {P P' : PState → Prop} {s h : Str} {n k : Nat} : Move C P P' s n h → Moves C P [(s, k)] n [(h, k)]
  | cons {P P' : PState → Prop} {s h : Str} {n m k : Nat} {ss hs : List (Str × Nat)} : Move C P P' s n h → Moves C P' ss m hs →
    Moves C P ((s, k) :: ss) (n + m) ((h, k) :: hs)

theorem Moves.lines {C : Ctx} {P : PState → Prop} {ss hs : List (Str × Nat)} {n : Nat} (h : Moves C P ss n hs) :
    ∀ p ∈ ss, ∃ ls, ls ≠ [] ∧ (∀ l ∈ ls, Spec.RawLine l) ∧ p.1 = Spec.join t!"\n" ls := by
  induction h with
  | one a => intro p hp; rw [List.mem_singleton] at hp; subst hp; exact a.lines
  | cons a _ ih =>
    intro p hp
    rcases List.mem_cons.1 hp with rfl | hp
    · exact a.lines
    · exact ih p hp

theorem Moves.ending {C : Ctx} {P : PState → Prop} {ss hs : List (Str × Nat)} {n : Nat} (h : Moves C P ss n hs) :
    ∀ p ∈ hs, p.1 ≠ [] ∧ p.1.getLast? ≠ some '\n' := by
  induction h with
  | one a => intro p hp; rw [List.mem_singleton] at hp; subst hp; exact a.ending
  | cons a _ ih =>
    intro p hp
    rcases List.mem_cons.1 hp with rfl | hp
    · exact a.ending
    · exact ih p hp

theorem Moves.run {C : Ctx} {P : PState → Prop} {ss hs : List (Str × Nat)} {n : Nat} (h : Moves C P ss n hs) :
    ∀ σ : PState, P σ → σ.spanDepth + 1 ≤ C.cfg.maxSpanDepth → ∃ σ' qs mids, PiecesTo C ss n σ σ' qs mids ∧ mids ≠ [] ∧
      Tidied C.cfg.brTag mids hs := by
  induction h with
  | one a =>
    intro σ hP hd
    obtain ⟨σ', q, mid, h1, h2, h3, h4, h5, h6, h7⟩ := a.run σ hP hd
    exact ⟨σ', [(q, _)], [(mid, _)], ⟨.one h1, h2, h4, h5, by simpa using h6⟩, by simp, .cons h7 .nil⟩
  | cons a _ ih =>
    rename_i s h n m k ss hs _
    intro σ hP hd
    obtain ⟨σ1, q, mid, h1, h2, h3, h4, h5, h6, h7⟩ := a.run σ hP hd
    obtain ⟨σ2, qs, mids, hs, hm, ht⟩ := ih σ1 h3 (by rw [h2.depth]; exact hd)
    refine ⟨σ2, (q, k) :: qs, (mid, k) :: mids, ⟨.cons h1 hs.steps, h2.trans hs.grow, ?_, ?_, ?_⟩, by simp, .cons h7 ht⟩
    · have := hs.index; omega
    · intro τ g1 g2
      have hi := hs.grow.index
      rw [glue_cons hs.steps.ne.2, glue_cons hm]
      have hn : Rep C.cfg.uid τ (nls (k + 2)) (nls (k + 2)) := by
        have := (Rep.nil (uid := C.cfg.uid) (σ := τ)).text (w := nls (k + 2)) (by simp [nls])
        simpa using this
      exact (h5 τ (g1.before0 hs.grow) (by omega)).append (hn.append (hs.rep τ g1 g2))
    · intro x hx
      rcases List.mem_cons.1 hx with rfl | hx
      · exact h6
      · exact hs.nolist x hx

theorem parse_moves {E : Env} {fuel : Nat} {cfg : Cfg} {base : Str} (D : DocCtx ⟨E, cfg, fuel⟩ base)
    (hbt : cfg.blockTags = true) (hsan : cfg.sanitizer = none) (hdep : 1 ≤ cfg.maxSpanDepth) {P : PState → Prop} (hP : P {})
    {text : Str} {ss hs : List (Str × Nat)} {n : Nat} (h : Moves ⟨E, cfg, fuel⟩ P ss n hs)
    (hseen : (if cfg.restricted then encodeHtml text false false else text) = Spec.glue ss) (hbl : ¬ Spec.Blank text)
    (htok : containsStr cfg.uid (Spec.glue ss) = false) (hn : 2 * n < 2 ^ 32) : parseFresh E fuel cfg text = .ok (Spec.glue hs) := by
  obtain ⟨h1, h2⟩ := normalize_lines (U := E.U) h.lines
  have hprep : prepare ⟨E, cfg, fuel⟩ text = Spec.glue ss := by
    unfold prepare
    simp only
    rw [hseen]
    have h1 : normalizeNewlines E.U (Spec.glue ss) = _ := h1
    rw [show (Ctx.U ⟨E, cfg, fuel⟩) = E.U from rfl, h1, replaceStr_none htok]
  obtain ⟨σ, qs, mids, hr, -, ht⟩ := h.run {} hP hdep
  refine parse_steps hbt hbl hprep hr.steps h2 (not_contains_glue (by decide) (by simp) hr.nolist)
    (runs_tags D (ShelfInv.ok (σ := { σ with aux := splitNotes σ.aux }) (hr.grow.inv (ShelfInv.empty rfl)))
      (by have := hr.grow.urls; simp only [splitNotes]; split <;> exact this)
      (hr.rep { σ with aux := splitNotes σ.aux } (fun _ _ => ⟨rfl, rfl⟩) ?_)) ?_
  · have := hr.index
    exact Nat.lt_of_le_of_lt this (by simpa using hn)
  · rw [finish_eq, show (⟨E, cfg, fuel⟩ : Ctx).cfg.sanitizer = none from hsan]
    simp only
    rw [ht.glue, ← dropFinalNewlines_eq]
    apply trimEndP_of_last
    intro c hc
    have := glue_last h.ending
    rw [hc] at this
    simpa using this

theorem kinds_moves {C : Ctx} {base : Str} {β : Type} (K : Kinds β) : ∀ {ds : List (β × Nat)} (_ : ds ≠ [])
    (_ : ∀ d ∈ ds, ∀ N M, Move C (fun σ => Num N σ ∧ FnState base {} M σ) (fun σ => Num (K.numbers N d.1) σ ∧ FnState base {} (K.notes M d.1) σ) (K.seen d.1) (K.marks d.1) (K.html N M d.1))
    (N : Spec.Numbers) (M : Spec.Notes),
    Moves C (fun σ => Num N σ ∧ FnState base {} M σ) (ds.map (fun d => (K.seen d.1, d.2))) (ds.map (fun d => K.marks d.1)).sum (K.docHtml N M ds)
  | [], hne, _, _, _ => absurd rfl hne
  | [d], _, h, N, M => by
    have := Moves.one (k := d.2) (h d (by simp) N M)
    simpa [Kinds.docHtml] using this
  | d :: e :: ds, _, h, N, M => by
    have ih := kinds_moves K (ds := e :: ds) (by simp) (fun x hx => h x (List.mem_cons_of_mem _ hx)) (K.numbers N d.1) (K.notes M d.1)
    have := Moves.cons (k := d.2) (h d (by simp) N M) ih
    simpa [Kinds.docHtml] using this

/-- What `parse` makes of documents of such blocks. -/
theorem parse_moveKinds {E : Env} {fuel : Nat} {cfg : Cfg} {base : Str} (D : DocCtx ⟨E, cfg, fuel⟩ base)
    (hbt : cfg.blockTags = true) (hsan : cfg.sanitizer = none) (hdep : 1 ≤ cfg.maxSpanDepth) {β : Type} (K : Kinds β) {ds : List (β × Nat)} (hne : ds ≠ [])
    (hs : ∀ d ∈ ds, (if cfg.restricted then encodeHtml (K.src d.1) false false else K.src d.1) = K.seen d.1)
    (hbl : ∀ d ∈ ds, ¬ cfg.uid <:+: K.src d.1 → ¬ cfg.uid <:+: K.seen d.1 → ¬ Spec.Blank (K.src d.1))
    (h : ∀ d ∈ ds, ¬ cfg.uid <:+: K.src d.1 → ¬ cfg.uid <:+: K.seen d.1 → ∀ N M, Move ⟨E, cfg, fuel⟩ (fun σ => Num N σ ∧ FnState base {} M σ)
      (fun σ => Num (K.numbers N d.1) σ ∧ FnState base {} (K.notes M d.1) σ) (K.seen d.1) (K.marks d.1) (K.html N M d.1))
    (htok : ¬ cfg.uid <:+: Spec.glue (ds.map (fun d => (K.src d.1, d.2)))) (hn : 2 * (ds.map (fun d => K.marks d.1)).sum < 2 ^ 32) :
    parseFresh E fuel cfg (Spec.glue (ds.map (fun d => (K.src d.1, d.2)))) = .ok (Spec.glue (K.docHtml (fun _ => 1) ⟨[], 0⟩ ds)) := by
  have e1 : (if cfg.restricted then encodeHtml (Spec.glue (ds.map (fun d => (K.src d.1, d.2)))) false false else Spec.glue (ds.map (fun d => (K.src d.1, d.2)))) =
      Spec.glue (ds.map (fun d => (K.seen d.1, d.2))) := by
    by_cases hr : cfg.restricted = true
    · rw [if_pos hr, enc_glue, List.map_map]
      congr 1
      apply List.map_congr_left
      intro d hd
      have := hs d hd
      rw [if_pos hr] at this
      simp only [Function.comp]
      rw [this]
    · rw [if_neg hr]
      congr 1
      apply List.map_congr_left
      intro d hd
      have := hs d hd
      rw [if_neg hr] at this
      rw [this]
  have htok' : containsStr cfg.uid (Spec.glue (ds.map (fun d => (K.seen d.1, d.2)))) = false := by
    have h0 := contains_of_not htok
    rw [← e1]
    split
    · obtain ⟨c1, c2, -, -, -, -, c7, -⟩ := uid_chars D.plain
      have hu : cfg.uid = uidOf base := D.uid
      rw [hu] at h0 ⊢
      exact containsStr_enc c1 c2 c7 h0
    · exact h0
  have hin : ∀ d ∈ ds, K.src d.1 <:+: Spec.glue (ds.map (fun d => (K.src d.1, d.2))) := fun d hd =>
    glue_infix (ps := ds.map (fun d => (K.src d.1, d.2))) (p := (K.src d.1, d.2)) (List.mem_map.2 ⟨d, hd, rfl⟩)
  have hk1 : ∀ d ∈ ds, ¬ cfg.uid <:+: K.src d.1 := fun d hd hi => htok (hi.trans (hin d hd))
  have hk2 : ∀ d ∈ ds, ¬ cfg.uid <:+: K.seen d.1 := by
    rintro d hd ⟨a, b, e⟩
    have := clean_of_infix htok' (glue_infix (ps := ds.map (fun d => (K.seen d.1, d.2))) (p := (K.seen d.1, d.2)) (List.mem_map.2 ⟨d, hd, rfl⟩))
    rw [containsStr_iff.2 ⟨a, b, by rw [← e]; simp⟩] at this
    cases this
  refine parse_moves D hbt hsan hdep (P := fun σ => Num (fun _ => 1) σ ∧ FnState base {} ⟨[], 0⟩ σ) ⟨fun _ => rfl, fun _ => rfl, rfl, rfl⟩
    (kinds_moves K hne (fun d hd => h d hd (hk1 d hd) (hk2 d hd)) _ _) e1 ?_ htok' hn
  obtain ⟨d, hd⟩ := List.exists_mem_of_ne_nil _ hne
  intro hb
  exact hbl d hd (hk1 d hd) (hk2 d hd) (fun c hc => hb c ((hin d hd).subset hc))

/-! ## Rules -/

theorem starAll_has {U : Uni} {r : Re} {g : Bool} : ∀ {us : List Str} {f : Str} {pre rest : Str} (s : Caps), us.length ≤ f.length →
    (∀ u ∈ us, ∀ pre rest, Has U r pre u rest) →
    ∃ s', (⟨us.flatten.reverse ++ pre, rest⟩, s') ∈ starAll (fun c s => r.all U c s) g f ⟨pre, us.flatten ++ rest⟩ s
  | [], f, pre, rest, s, _, _ => ⟨s, by
      cases f with
      | nil => simp [starAll]
      | cons x f => cases g <;> simp [starAll]⟩
  | u :: us, [], _, _, _, hf, _ => by simp at hf
  | u :: us, x :: f, pre, rest, s, hf, h => by
    obtain ⟨s1, h1⟩ := h u (by simp) pre (us.flatten ++ rest) s
    obtain ⟨s2, h2⟩ := starAll_has (g := g) (us := us) (f := f) (pre := u.reverse ++ pre) (rest := rest) s1 (by simpa using hf) (fun v hv => h v (by simp [hv]))
    refine ⟨s2, ?_⟩
    have hm : (⟨(u :: us).flatten.reverse ++ pre, rest⟩, s2) ∈ (r.all U ⟨pre, (u :: us).flatten ++ rest⟩ s).flatMap (fun p => starAll (fun c s => r.all U c s) g f p.1 p.2) := by
      rw [List.mem_flatMap]
      refine ⟨_, by simpa using h1, ?_⟩
      simpa using h2
    cases g with
    | false => simp only [starAll, Bool.false_eq_true, if_false]; exact List.mem_cons_of_mem _ hm
    | true => simp only [starAll, if_true]; exact List.mem_append_left _ hm

theorem Has.many {U : Uni} {r : Re} {g : Bool} {us : List Str} {pre rest : Str} (hne : ∀ u ∈ us, u ≠ []) (h : ∀ u ∈ us, ∀ pre rest, Has U r pre u rest) :
    Has U (.star g r) pre us.flatten rest := by
  intro s
  have hl : ∀ us : List Str, (∀ u ∈ us, u ≠ []) → us.length ≤ us.flatten.length := by
    intro us
    induction us with
    | nil => simp
    | cons u us ih =>
      intro hne
      have := ih (fun v hv => hne v (by simp [hv]))
      have : 0 < u.length := by have := hne u (by simp); cases u <;> simp_all
      simp only [List.length_cons, List.flatten_cons, List.length_append]; omega
  exact starAll_has s (by simp only [List.length_append]; have := hl us hne; omega) h

theorem Has.group {U : Uni} {r : Re} {n : Nat} {pre w rest : Str} (h : Has U r pre w rest) : Has U (.grp n r) pre w rest := by
  intro s
  obtain ⟨s1, h1⟩ := h s
  exact ⟨_, by simp only [Re.all, List.mem_map]; exact ⟨_, h1, rfl⟩⟩

theorem Has.bot {U : Uni} {rest : Str} : Has U .bot [] [] rest := fun s => ⟨s, by simp [Re.all]⟩

theorem Has.eot {U : Uni} {pre : Str} : Has U .eot pre [] [] := fun s => ⟨s, by simp [Re.all]⟩

/-- One tag of `DIVIDER_RE`. -/
def dividerTag : Re :=
  .seq (.set false [.chr '<']) (.seq (.alt (.set false [.chr '/']) .eps) (.seq (.grp 1
    (.alt (.seq (.set false [.chr 'b', .chr 'B']) (.set false [.chr 'r', .chr 'R']))
      (.alt (.seq (.set false [.chr 'h', .chr 'H']) (.set false [.chr 'r', .chr 'R']))
        (.seq (.set false [.chr 'i', .chr 'I']) (.seq (.set false [.chr 'm', .chr 'M']) (.set false [.chr 'g', .chr 'G'])))))) (.seq
    (.alt (.seq (.set false [.cls .space]) (.star false (.set true [.chr '<', .chr '>']))) (.alt (.set false [.chr '/']) .eps)) (.seq
    (.set false [.chr '>'])
    (.alt (.seq (.set false [.chr '<']) (.seq (.set false [.chr '/']) (.seq (.bref 1) (.seq (.star false (.set false [.cls .space])) (.set false [.chr '>'])))))
      .eps)))))

theorem dividerRe_shape : DIVIDER_RE = .seq .bot (.seq (.seq dividerTag (.star true dividerTag)) .eot) := by kernel_rfl

theorem divider_tag {U : Uni} {t : Spec.RawTag} (h : t.Ok) (pre rest : Str) : Has U dividerTag pre t.source rest := by
  have e : t.source = t!"<" ++ ([] ++ (t.name ++ (t.rest ++ (t!">" ++ [])))) := by simp [Spec.RawTag.source]
  rw [e]
  refine .seq (.set rfl) (.seq (.right .eps) (.seq (.group ?_) (.seq ?_ (.seq (.set rfl) (.right .eps)))))
  · rcases h.name with hn | hn <;> rw [hn]
    · exact .right (.left (.seq (u := ['h']) (v := ['r']) (.set rfl) (.set rfl)))
    · exact .right (.right (.seq (u := ['i']) (v := ['m', 'g']) (.set rfl) (.seq (u := ['m']) (v := ['g']) (.set rfl) (.set rfl))))
  · rcases h.rest with hn | hn | ⟨u, hn⟩
    · rw [hn]; exact .right (.right .eps)
    · rw [hn]; exact .right (.left (.set rfl))
    · have hc := h.chars
      rw [hn] at hc ⊢
      refine .left (.seq (u := [' ']) (v := u) (.set rfl) (.star ?_))
      intro x hx
      have := hc x (by simp [hx])
      have e1 : x.toNat ≠ '<'.toNat := fun e => this.1 (Char.toNat_inj.1 e)
      have e2 : x.toNat ≠ '>'.toNat := fun e => this.2.1 (Char.toNat_inj.1 e)
      simpa [evalSet, Item.eval] using ⟨e1, e2⟩

theorem divider_match {U : Uni} {ts : List Spec.RawTag} (hne : ts ≠ []) (h : ∀ t ∈ ts, t.Ok) : DIVIDER_RE.isMatch U (Spec.rawSource ts) = true := by
  rw [dividerRe_shape]
  cases ts with
  | nil => exact absurd rfl hne
  | cons t ts =>
    have e : Spec.rawSource (t :: ts) = ([] ++ ((t.source ++ (ts.map Spec.RawTag.source).flatten) ++ [])) ++ [] := by simp [Spec.rawSource, List.flatMap]
    rw [e]
    refine Has.isMatch (.seq .bot (.seq (.seq (divider_tag (h t (by simp)) _ _) (.many ?_ ?_)) .eot))
    · intro u hu
      obtain ⟨t', -, rfl⟩ := List.mem_map.1 hu
      simp [Spec.RawTag.source]
    · intro u hu
      obtain ⟨t', ht, rfl⟩ := List.mem_map.1 hu
      exact divider_tag (h t' (by simp [ht]))

theorem ruleTags_ends {ts : List Spec.RawTag} (hne : ts ≠ []) : (∃ u, Spec.rawSource ts = '<' :: u) ∧ ∃ u, Spec.rawSource ts = u ++ ['>'] := by
  refine ⟨?_, ?_⟩
  · cases ts with
    | nil => exact absurd rfl hne
    | cons t ts => exact ⟨_, by simp only [Spec.rawSource, List.flatMap_cons, Spec.RawTag.source, List.cons_append]; rfl⟩
  · rcases List.eq_nil_or_concat ts with rfl | ⟨us, t, rfl⟩
    · exact absurd rfl hne
    · exact ⟨Spec.rawSource us ++ ('<' :: (t.name ++ t.rest)), by simp [Spec.rawSource, Spec.RawTag.source]⟩

theorem rawTag_free {t : Spec.RawTag} (h : t.Ok) : Free t!"<br" t.source := by
  have hr : '<' ∉ t.rest := fun hm => (h.chars _ hm).1 rfl
  have h1 : Free t!"<br" ('<' :: t.name) := by rcases h.name with hn | hn <;> rw [hn] <;> exact Free.of (by decide)
  have h2 := h1.append (Free.of_head (n := t!"<br") (w := t.rest ++ t!">") rfl (by simp [hr]))
  simpa [Spec.RawTag.source] using h2

theorem ruleTags_free {ts : List Spec.RawTag} (h : ∀ t ∈ ts, t.Ok) : Free t!"<br" (Spec.rawSource ts) := by
  induction ts with
  | nil => exact Free.nil
  | cons t ts ih => exact (rawTag_free (h t (by simp))).append (ih (fun x hx => h x (by simp [hx])))

theorem blockBody_raw {C : Ctx} {g : Str → Prog Str} {s : BlkSt} {b : Str}
    (h : (blockTagRe C).captures C.U b = none) (hx : s.ext = []) (hd : DIVIDER_RE.isMatch C.U b = true) (hr : C.cfg.restricted = false) :
    blockBody C g s b = (do let t ← shelveP b; pure (s, true, t)) := by
  unfold blockBody
  rw [show (if C.cfg.lite then TEXTILE_LIGHT_TAG_RE else TEXTILE_TAG_RE).captures C.U b = none from h]
  simp [hx, hd, hr]

theorem noBlock_at {dig : Char → Bool} {lite : Bool} {c : Char} {t : Str} (h : c = '<' ∨ c = ' ') : Spec.NoBlockStart dig lite (c :: t) := by
  have hc : c ∉ t!"bnp#hf" := by rcases h with rfl | rfl <;> decide
  intro w x u e _ hw
  replace hw : Spec.fullWord dig w := by
    cases lite
    · exact hw
    · left
      simp only [Spec.blockWord, if_true, Spec.liteWord, List.mem_cons, List.not_mem_nil, or_false] at hw
      rcases hw with rfl | rfl | rfl <;> decide
  cases w with
  | nil => rcases hw with hw | ⟨d, ds, hw, -⟩ <;> simp at hw
  | cons y w =>
    obtain ⟨rfl, -⟩ : c = y ∧ _ := by simpa using e
    rcases hw with hw | ⟨d, ds, hw, -⟩
    · simp at hw hc
      grind
    · simp at hw hc
      grind

theorem noAtts_ok : ({} : Spec.Atts).Ok := by
  constructor <;> simp

theorem act_rule {C : Ctx} {base : Str} (D : DocCtx C base) {ts : List Spec.RawTag} (hne : ts ≠ []) (h : ∀ t ∈ ts, t.Ok) (hr : C.cfg.restricted = false)
    (htok : ¬ C.cfg.uid <:+: Spec.rawSource ts) {P : PState → Prop} (hP : ∀ σ σ', Keeps σ σ' → σ'.aux = σ.aux → P σ → P σ') :
    Move C P P (Spec.rawSource ts) 1 (Spec.rawSource ts) := by
  obtain ⟨⟨u, hu⟩, v, hv⟩ := ruleTags_ends hne
  have hch : ∀ c ∈ Spec.rawSource ts, c ≠ '\n' ∧ c ≠ '\r' := by
    intro c hc
    simp only [Spec.rawSource, List.mem_flatMap, Spec.RawTag.source, List.mem_cons, List.mem_append, List.not_mem_nil, or_false] at hc
    obtain ⟨t, ht, rfl | hc | hc | rfl⟩ := hc
    · decide
    · rcases (h t ht).name with hn | hn <;> rw [hn] at hc <;> exact (by decide : ∀ c ∈ t!"hrimg", c ≠ '\n' ∧ c ≠ '\r') c (by simp at hc ⊢; rcases hc with rfl | rfl | rfl <;> simp)
    · exact ((h t ht).chars c hc).2.2
    · decide
  refine ⟨⟨[Spec.rawSource ts], by simp, ?_, by simp [Spec.join]⟩, ?_, ?_, ?_⟩
  · intro l hl
    rw [List.mem_singleton] at hl
    subst hl
    exact ⟨fun hm => (hch _ hm).1 rfl, fun hm => (hch _ hm).2 rfl, by rw [hu]; exact blank_not (by decide)⟩
  · intro σ hσ hd
    have hk := key_nolt D (σ.refIndex + 1)
    have hg := Grow.shelved C.cfg.uid (Spec.rawSource ts) σ
    have hf : ∀ {n : Str}, n.head? = some '<' → Free n (shelfKey C.cfg.uid (σ.refIndex + 1)) := fun hn => Free.of_head hn hk
    refine ⟨σ.shelved C.cfg.uid (Spec.rawSource ts), shelfKey C.cfg.uid (σ.refIndex + 1), Spec.rawSource ts, ?_, hg.toGrows,
      hP _ _ (hg.keeps (by rw [shelved_aux])) (shelved_aux _ _ _) hσ, by simp [PState.shelved], ?_, not_contains_of_free (by simp) (hf rfl), ?_⟩
    · refine step_of_body (o := shelfKey C.cfg.uid (σ.refIndex + 1)) (by rw [hu]; exact trim_ne (by decide)) ?_ ?_
      · rw [doPBr_noclose (not_contains_of_free (by simp) (hf rfl)) (not_contains_of_free (by simp) (hf rfl))]
        exact Broken.replace (Broken.single ⟨hf rfl, hf rfl, hf rfl, hf rfl⟩)
      · intro s h1 h2 h3 h4 h5
        rw [blockBody_raw (tag_none_of (by rw [hu]; exact noBlock_at (.inl rfl))) h1 (divider_match hne h) hr]
        exact ⟨s, true, (Runs.shelve _ _ _).bind (Runs.pure _ _), h1, h5, rfl, rfl, rfl⟩
    · intro τ hτ _
      have := rep_raw D (tag := t!"notextile") (t := Spec.rawSource ts) (a := {}) (τ := τ) (n := σ.refIndex + 1) noAtts_ok
        (containsStr_false_of_mem (c := ':') D.colon (by simp [Spec.Atts.source, Spec.Atts.marks])) (by simp) (contains_of_not htok)
        (fun _ => .inr ⟨⟨'<', u, hu, by decide⟩, ⟨v, '>', hv, by decide⟩, contains_of_not htok⟩) (by
          rw [(hτ (σ.refIndex + 1) (by simp [PState.shelved])).2]
          exact shelved_lookup _ _ _)
      simpa [rawOpen, rawClose, rawValue] using this
    · intro r _
      exact tidyBreaks_free (ruleTags_free h)
  · rw [hu]; simp
  · rw [hv, List.getLast?_concat]; decide

/-! ## Indented texts -/

theorem lined_after : ∀ {a b : Str}, lined (a ++ b) = true → lined b = true
  | [], _, h => h
  | _ :: a, _, h => lined_after (a := a) (lined_tail h)

theorem indented_char {up : Char → Bool} {t : Spec.AnText} (h : t.Ok up) {n : Nat} {c : Char} {u : Str} (e : t.source = ' ' :: (List.replicate n ' ' ++ c :: u))
    (h1 : c ≠ ' ') (h2 : c ≠ '\n') : isWs c = false := by
  have e' : t.lead ++ Spec.anParts t.parts = (' ' :: List.replicate n ' ') ++ c :: u := by simpa [Spec.AnText.source] using e
  have hP : ∀ x v, Spec.anParts t.parts = x :: v → x = '"' := by
    intro x v hx
    cases hp : t.parts with
    | nil => rw [hp] at hx; cases hx
    | cons p ps => rw [hp] at hx; simp [Spec.anParts, Spec.Anchor.source] at hx; exact hx.1.symm
  rcases List.append_eq_append_iff.1 e' with ⟨a, e1, e2⟩ | ⟨a, e1, e2⟩
  · cases a with
    | nil => rw [hP c u (by simpa using e2)]; decide
    | cons x a =>
      have hx := hP x _ e2
      have : x ∈ ' ' :: List.replicate n ' ' := by rw [e1]; simp
      subst hx
      simp at this
  · cases a with
    | nil => rw [hP c u (by simpa using e2.symm)]; decide
    | cons x a =>
      obtain ⟨rfl, -⟩ : c = x ∧ _ := by simpa using e2
      exact (plain_nows ((h.lead.chars c (by rw [e1]; simp)).resolve_right h2) h1).1

theorem indented_seen {U : Uni} {t : Spec.AnText} (h : t.Ok U.isLu) {n : Nat} {c : Char} {u : Str} (e : t.source = ' ' :: (List.replicate n ' ' ++ c :: u))
    (h1 : c ≠ ' ') (h2 : c ≠ '\n') (r : Bool) : ∃ d v, anSeen r t = (' ' :: List.replicate n ' ') ++ d :: v ∧ isWs d = false := by
  have hc := indented_char h e h1 h2
  have hs := anSeen_eq h r
  rw [e] at hs
  cases r with
  | false => exact ⟨c, u, by rw [← hs]; simp, hc⟩
  | true =>
    have e3 : encodeHtml (List.replicate n ' ') false false = List.replicate n ' ' := enc_id (by
      intro x hx; rw [List.mem_replicate] at hx; rw [hx.2]; decide)
    rw [if_pos rfl, enc_cons, enc_append, enc_cons, e3] at hs
    obtain ⟨d, v, hd, hw⟩ : ∃ d v, encChar false false c = d :: v ∧ isWs d = false := by
      unfold encChar
      repeat' split
      all_goals first | exact ⟨_, _, rfl, by decide⟩ | exact ⟨_, _, rfl, hc⟩
    exact ⟨d, v ++ encodeHtml u false false, by rw [← hs, hd]; rfl, hw⟩

theorem flat_rep {uid : Str} {τ : PState} : ∀ {L : List (Slot × Str)} {w : Str}, ':' ∉ w → (∀ p ∈ L, (∃ n v, p.1 = .key n v) ∧ ':' ∉ p.2) →
    (∀ p ∈ L, ∀ n v, p.1 = .key n v → ∀ r h, Rep uid τ r h → Rep uid τ (shelfKey uid n ++ r) (v ++ h)) →
    Rep uid τ (w ++ slotsText uid L) (w ++ L.flatMap (fun p => p.1.html ++ p.2))
  | [], w, hw, _, _ => by
    have := (Rep.nil (uid := uid) (σ := τ)).text hw
    simpa [slotsText] using this
  | p :: L, w, hw, hk, hr => by
    obtain ⟨⟨n, v, e⟩, h2⟩ := hk p (by simp)
    have ih := flat_rep (L := L) (w := p.2) h2 (fun q hq => hk q (by simp [hq])) (fun q hq => hr q (by simp [hq]))
    have := (hr p (by simp) n v e _ _ ih).text hw
    rw [slotsText_cons, List.flatMap_cons, e]
    simpa [Slot.str, Slot.html] using this

theorem flat_last {up : Char → Bool} {t : Spec.AnText} (h : t.Ok up) (r : Bool) : t.flat r ≠ [] ∧ (t.flat r).getLast? ≠ some '\n' := by
  rcases List.eq_nil_or_concat t.parts with hp | ⟨ps, q, hp⟩
  · have e : t.flat r = t.source := by simp [Spec.AnText.flat, Spec.AnText.source, hp, Spec.anParts]
    rw [e]
    obtain ⟨c, u, e, -⟩ := h.first
    refine ⟨by rw [e]; simp, fun hl => ?_⟩
    obtain ⟨v, hv⟩ := List.getLast?_eq_some_iff.1 hl
    exact h.last ⟨v, '\n', hv, .inr rfl⟩
  · rw [List.concat_eq_append] at hp
    have hh : ∃ v, q.1.html r = v ++ ['>'] := by
      have : ∀ a b : Str, (∃ v, b = v ++ ['>']) → ∃ v, a ++ b = v ++ ['>'] := by
        rintro a b ⟨v, rfl⟩
        exact ⟨a ++ v, by simp⟩
      unfold Spec.Anchor.html
      repeat' apply this
      exact ⟨['<', '/', 'a'], rfl⟩
    obtain ⟨v, hv⟩ := hh
    refine ⟨by simp [Spec.AnText.flat, hp, hv], ?_⟩
    have e : t.flat r = (t.lead ++ ps.flatMap (fun p => p.1.html r ++ p.2) ++ q.1.html r) ++ q.2 := by simp [Spec.AnText.flat, hp]
    rw [e]
    by_cases hq : q.2 = []
    · rw [hq, hv, List.append_nil, ← List.append_assoc, List.getLast?_concat]; decide
    · rw [getLast_append_ne hq]
      intro hl
      obtain ⟨u, hu⟩ := List.getLast?_eq_some_iff.1 hl
      exact h.last ⟨t.lead ++ (Spec.anParts ps ++ (q.1.source ++ u)), '\n', by
        simp [Spec.AnText.source, Spec.anParts, hp, hu], .inr rfl⟩

theorem flat_free {U : Uni} {t : Spec.AnText} (h : t.Ok U.isLu) (r : Bool) : Free t!"<br" (t.flat r) := by
  refine (Free.of_head rfl (prose_nochar h.lead (by decide) (by decide))).append ?_
  have : ∀ {ps : List (Spec.Anchor × Str)}, (∀ p ∈ ps, p.1.Ok U.isLu p.2 ∧ Spec.Prose U.isLu p.2) → Free t!"<br" (ps.flatMap (fun p => p.1.html r ++ p.2)) := by
    intro ps
    induction ps with
    | nil => exact fun _ => Free.nil
    | cons p ps ih =>
      intro h
      obtain ⟨h1, h2⟩ := h p (by simp)
      exact ((anchor_free h1 r).1.append (Free.of_head rfl (prose_nochar h2 (by decide) (by decide)))).append (ih (fun q hq => h q (by simp [hq])))
  exact this h.parts

theorem act_indented {C : Ctx} {base : Str} (D : DocCtx C base) {t : Spec.AnText} (h : t.Ok C.U.isLu)
    (hR : t.Resolved (Spec.Resolves C.E.urlParse C.E.urlJoin C.cfg.restricted) (Spec.Absolute C.E.urlParse) C.cfg.rel)
    (hsrc : ¬ C.cfg.uid <:+: t.source) {n : Nat} {c : Char} {u : Str} (e : t.source = ' ' :: (List.replicate n ' ' ++ c :: u))
    (h1 : c ≠ ' ') (h2 : c ≠ '\n') {P : PState → Prop} (hP : ∀ σ σ', Keeps σ σ' → σ'.aux = σ.aux → P σ → P σ') :
    Move C P P (anSeen C.cfg.restricted t) t.marks (t.flat C.cfg.restricted) := by
  obtain ⟨d, v, hd, hw⟩ := indented_seen h e h1 h2 C.cfg.restricted
  have hl := an_lined h C.cfg.restricted
  have hcr := an_nocr h C.cfg.restricted
  refine ⟨?_, ?_, flat_last h _⟩
  · have e' : anSeen C.cfg.restricted t = ((' ' :: List.replicate n ' ') ++ [d]) ++ v := by rw [hd]; simp
    rw [e'] at hl hcr ⊢
    refine lines_of v (lined_after hl) hcr ?_ ?_
    · intro hm
      simp only [List.mem_append, List.mem_cons, List.mem_replicate, List.not_mem_nil, or_false] at hm
      rcases hm with (hm | ⟨-, hm⟩) | hm
      · revert hm; decide
      · revert hm; decide
      · rw [← hm] at hw; revert hw; decide
    · intro hb
      rcases hb d (by simp) with rfl | rfl <;> revert hw <;> decide
  · intro σ hσ hdp
    have hs := an_source D h hR hsrc σ
    have hkeys := anSlots_keys C.cfg.uid C.cfg.restricted t.parts σ
    have haft := anSlots_after C.cfg.uid C.cfg.restricted t.parts σ
    have hhtml := anSlots_html C.cfg.uid C.cfg.restricted t.parts σ
    have hrep : ∀ τ : PState, Agrees C.cfg.uid (anSlots C.cfg.uid C.cfg.restricted σ t.parts).2 τ →
        (anSlots C.cfg.uid C.cfg.restricted σ t.parts).2.refIndex < 2 ^ 32 →
        ∀ p ∈ (anSlots C.cfg.uid C.cfg.restricted σ t.parts).1, ∀ n v, p.1 = .key n v → ∀ r h, Rep C.cfg.uid τ r h →
        Rep C.cfg.uid τ (shelfKey C.cfg.uid n ++ r) (v ++ h) := an_rep D h hsrc σ
    have e2 : (anSlots C.cfg.uid C.cfg.restricted σ t.parts).1.flatMap (fun p => p.1.html ++ p.2) =
        t.parts.flatMap (fun p => p.1.html C.cfg.restricted ++ p.2) := by
      have := congrArg (fun l => l.flatMap (fun p : Str × Str => p.1 ++ p.2)) hhtml
      simpa [List.flatMap_map] using this
    obtain ⟨xs, σ', g1, g2, g3, g4, g5, g6⟩ := graf_inline D hs.text.toInlineOk hs.early (by rw [hs.grow.depth]; exact hdp)
    have hx : xs = [] := List.map_eq_nil_iff.1 g2
    subst hx
    have hov : mixA.Over (t.lead ++ slotsText C.cfg.uid (anSlots C.cfg.uid C.cfg.restricted σ t.parts).1) := hs.text.over
    generalize hL : (anSlots C.cfg.uid C.cfg.restricted σ t.parts).1 = L at *
    generalize hS : (anSlots C.cfg.uid C.cfg.restricted σ t.parts).2 = σ1 at *
    have hg := hs.grow.trans g5.grow
    have ha := g5.aux.trans hs.aux
    have hlt : '<' ∉ t.lead ++ slotsText C.cfg.uid L := fun hm => Alpha.not_mem (A := mixA) (by decide) (by decide) (hov _ hm)
    have hf : ∀ {n : Str}, n.head? = some '<' → Free n (t.lead ++ slotsText C.cfg.uid L) := fun hn => Free.of_head hn hlt
    have g1' : Runs C (graf C C.fuel (anSeen C.cfg.restricted t)) (t.lead ++ slotsText C.cfg.uid L) σ σ' := by simpa [mix] using g1
    refine ⟨σ', t.lead ++ slotsText C.cfg.uid L, t.flat C.cfg.restricted, ?_, hg.toGrows, hP _ _ (hg.keeps (by rw [ha])) ha hσ, by rw [g6]; exact hs.index, ?_,
      not_contains_of_free (by simp) (hf rfl), ?_⟩
    · have hrun := anSeen_run h C.cfg.restricted
      obtain ⟨m1, -, m3, m4⟩ := anM_ok
      refine step_of_body (o := t.lead ++ slotsText C.cfg.uid L) ?_ ?_ ?_
      · intro e
        have := (trim_isEmpty (s := anSeen C.cfg.restricted t)).1 (by rw [e]; rfl) d (by rw [hd]; simp)
        rw [hw] at this; cases this
      · rw [doPBr_noclose (not_contains_of_free (by simp) (hf rfl)) (not_contains_of_free (by simp) (hf rfl))]
        exact Broken.replace (Broken.single ⟨hf rfl, hf rfl, hf rfl, hf rfl⟩)
      · intro s h1 h2 h3 h4 h5
        rw [blockBody_indented (tag_none_of (by rw [hd]; exact noBlock_at (.inr rfl))) h1 (by rw [hd]; rfl)
          (Re.isMatch_none (Auto.search_none D.uni m1 m4 (by decide) hrun))]
        exact ⟨s, true, g1'.bind (Runs.pure _ _), h1, h5, rfl, rfl, rfl⟩
    · intro τ hτ hi
      unfold Spec.AnText.flat
      rw [← e2]
      refine flat_rep (prose_nochar h.lead (by decide) (by decide)) ?_ (hrep τ (hτ.before g5.grow) (by rw [List.length_nil] at g6; omega))
      intro p hp
      refine ⟨hkeys p hp, ?_⟩
      have : p.2 ∈ t.parts.map (·.2) := by rw [← haft]; exact List.mem_map.2 ⟨p, hp, rfl⟩
      obtain ⟨q, hq, e⟩ := List.mem_map.1 this
      rw [← e]
      exact prose_nochar (h.parts q hq).2 (by decide) (by decide)
    · intro r _
      exact tidyBreaks_free (flat_free h _)

/-! ## Documents -/

/-- The block as it is seen. -/
def rawSeen (r : Bool) : Spec.RawBlock → Str
  | .other b => anBlockSeen r b
  | .rule ts => Spec.rawSource ts
  | .indented t => anSeen r t

theorem raw_seen {C : Ctx} (hU : UniOk C.U) {b : Spec.RawBlock} (h : b.Ok C.U.isLu C.U.isNd C.cfg.lite C.cfg.restricted) :
    (if C.cfg.restricted then encodeHtml b.source false false else b.source) = rawSeen C.cfg.restricted b := by
  cases b with
  | other b => exact anBlock_seen hU h
  | rule ts =>
    have : C.cfg.restricted = false := h.2.2
    rw [this]; rfl
  | indented t => exact anSeen_eq h.1 _

theorem move_raw {C : Ctx} {base : Str} (D : DocCtx C base) (hp : C.cfg.linkPrefix = base ++ t!"-") (hcap : C.cfg.capsTempl = capsTemplate C.cfg.uid) (hz : C.cfg.getSizes = false) (hno : C.cfg.noimage = false)
    {ok : Char → Prop} (ha : ∀ c, c.toNat < 128 → ok c) {b : Spec.RawBlock} (hL : Lowers C.U ok)
    (h : b.Ok C.U.isLu C.U.isNd C.cfg.lite C.cfg.restricted) (hc : ∀ c ∈ b.chars, ok c)
    (hR : b.Resolved (Spec.Resolves C.E.urlParse C.E.urlJoin C.cfg.restricted) (Spec.Reads C.E.urlParse C.E.urlJoin) (Spec.Absolute C.E.urlParse) C.cfg.rel)
    (hsrc : ¬ C.cfg.uid <:+: b.source) (htok : ¬ C.cfg.uid <:+: rawSeen C.cfg.restricted b) (N : Spec.Numbers) (M : Spec.Notes) :
    Move C (fun σ => Num N σ ∧ FnState base {} M σ) (fun σ => Num (b.numbers N C.cfg.restricted) σ ∧ FnState base {} (b.notes M C.cfg.restricted) σ)
      (rawSeen C.cfg.restricted b) b.marks (b.html C.cfg.html5 C.cfg.brTag C.cfg.restricted (useAlignClass C.cfg) base N M) := by
  have hP : ∀ σ σ' : PState, Keeps σ σ' → σ'.aux = σ.aux → (Num N σ ∧ FnState base {} M σ) → (Num N σ' ∧ FnState base {} M σ') :=
    fun σ σ' hk ha h => ⟨fun x => by rw [ha]; exact h.1 x, h.2.keeps hk⟩
  cases b with
  | other b => exact (act_an D hp hcap hz hno ha hL h hc hR hsrc htok N M).move
  | rule ts => exact act_rule D h.1 h.2.1 h.2.2 htok hP
  | indented t =>
    obtain ⟨h1, n, c, u, e, h2, h3⟩ := h
    exact act_indented D h1 hR hsrc e h2 h3 hP

/-- No block is blank. -/
theorem raw_notBlank {E : Env} {fuel : Nat} {cfg : Cfg} {base : Str} (D : DocCtx ⟨E, cfg, fuel⟩ base) (hp : cfg.linkPrefix = base ++ t!"-")
    (hcap : cfg.capsTempl = capsTemplate cfg.uid) (hz : cfg.getSizes = false) (hno : cfg.noimage = false)
    {ok : Char → Prop} (ha : ∀ c, c.toNat < 128 → ok c) {b : Spec.RawBlock} (hL : Lowers E.U ok)
    (h : b.Ok E.U.isLu E.U.isNd cfg.lite cfg.restricted) (hc : ∀ c ∈ b.chars, ok c)
    (hR : b.Resolved (Spec.Resolves E.urlParse E.urlJoin cfg.restricted) (Spec.Reads E.urlParse E.urlJoin) (Spec.Absolute E.urlParse) cfg.rel)
    (hsrc : ¬ cfg.uid <:+: b.source) (htok : ¬ cfg.uid <:+: rawSeen cfg.restricted b) : ¬ Spec.Blank b.source := by
  cases b with
  | other b =>
    have ac := act_an (C := ⟨E, cfg, fuel⟩) D hp hcap hz hno ha hL h hc hR hsrc htok (fun _ => 1) ⟨[], 0⟩
    exact (prepared D (ss := [(anBlockSeen cfg.restricted b, 0)]) (text := b.source) (by
      intro p hp'; rw [List.mem_singleton] at hp'; subst hp'; exact ac.lines) (by simpa [Spec.glue] using ac.first)
      (by simpa [Spec.glue] using anBlock_seen (C := ⟨E, cfg, fuel⟩) D.uni h) hsrc).2.1
  | rule ts =>
    obtain ⟨⟨u, hu⟩, -⟩ := ruleTags_ends h.1
    intro hb
    have := hb '<' (by simp only [Spec.RawBlock.source, hu]; simp)
    revert this; decide
  | indented t =>
    obtain ⟨h1, n, c, u, e, h2, h3⟩ := h
    intro hb
    have := (isWs_iff c).2 (hb c (by simp only [Spec.RawBlock.source, e]; simp))
    rw [indented_char h1 e h2 h3] at this
    cases this

def rawKinds (cfg : Cfg) (base : Str) : Kinds Spec.RawBlock where
  src := Spec.RawBlock.source
  seen := rawSeen cfg.restricted
  marks := Spec.RawBlock.marks
  html := fun N M b => b.html cfg.html5 cfg.brTag cfg.restricted (useAlignClass cfg) base N M
  numbers := fun N b => b.numbers N cfg.restricted
  notes := fun M b => b.notes M cfg.restricted

/-- What `parse` makes of documents with HTML rules and images and indented texts. -/
theorem parse_rawDoc {E : Env} {fuel : Nat} {cfg : Cfg} {base : Str} (D : DocCtx ⟨E, cfg, fuel⟩ base) (hp : cfg.linkPrefix = base ++ t!"-")
    (hcap : cfg.capsTempl = capsTemplate cfg.uid)
    (hz : cfg.getSizes = false) (hno : cfg.noimage = false)
    (hbt : cfg.blockTags = true) (hsan : cfg.sanitizer = none) (hdep : 1 ≤ cfg.maxSpanDepth) {ok : Char → Prop}
    (ha : ∀ c, c.toNat < 128 → ok c) (hL : Lowers E.U ok) {ds : List (Spec.RawBlock × Nat)}
    (hne : ds ≠ []) (h : ∀ d ∈ ds, d.1.Ok E.U.isLu E.U.isNd cfg.lite cfg.restricted) (hc : ∀ d ∈ ds, ∀ c ∈ d.1.chars, ok c)
    (hR : ∀ d ∈ ds, d.1.Resolved (Spec.Resolves E.urlParse E.urlJoin cfg.restricted) (Spec.Reads E.urlParse E.urlJoin) (Spec.Absolute E.urlParse) cfg.rel)
    (htok : ¬ cfg.uid <:+: Spec.rawDocSource ds) (hn : 2 * Spec.rawMarks ds < 2 ^ 32) :
    parseFresh E fuel cfg (Spec.rawDocSource ds) = .ok (Spec.rawDocHtml cfg.html5 cfg.brTag cfg.restricted (useAlignClass cfg) base ds) := by
  have := parse_moveKinds D hbt hsan hdep (β := Spec.RawBlock)
    (rawKinds cfg base) hne
    (fun d hd => raw_seen (C := ⟨E, cfg, fuel⟩) D.uni (h d hd))
    (fun d hd h1 h2 => raw_notBlank D hp hcap hz hno ha hL (h d hd) (hc d hd) (hR d hd) h1 h2)
    (fun d hd h1 h2 N M => move_raw D hp hcap hz hno ha hL (h d hd) (hc d hd) (hR d hd) h1 h2 N M) htok hn
  have e : ∀ (ds : List (Spec.RawBlock × Nat)) N M, Kinds.docHtml (rawKinds cfg base) N M ds =
      Spec.rawHtml cfg.html5 cfg.brTag cfg.restricted (useAlignClass cfg) base N M ds := by
    intro ds
    induction ds with
    | nil => intro _ _; rfl
    | cons d ds ih => intro N M; simp only [Kinds.docHtml, Spec.rawHtml, ih]; rfl
  rw [e] at this
  exact this

end Rustextile
