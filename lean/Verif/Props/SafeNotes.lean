import Verif.Props.Safe
import Verif.Props.Endnotes
import Verif.Props.Extended

/-!
# C93 and C94 for documents with endnotes and extended blocks
-/

namespace Rustextile

open Prog
open Spec (SafeAtts SafeHtml)

/-! ## Extended blocks -/

theorem chain_from : ∀ {x : Str} {ps : List (Nat × Str)} {k : Nat} {q : Str × Nat}, q ∈ Spec.chain x ps k → q.1 = x ∨ ∃ p ∈ ps, q.1 = p.2
  | x, [], k, q, h => by
    rw [Spec.chain, List.mem_singleton] at h
    exact .inl (by rw [h])
  | x, p :: ps, k, q, h => by
    rw [Spec.chain] at h
    rcases List.mem_cons.1 h with rfl | h
    · exact .inl rfl
    · rcases chain_from h with e | ⟨r, hr, e⟩
      · exact .inr ⟨p, by simp, e⟩
      · exact .inr ⟨r, List.mem_cons_of_mem _ hr, e⟩

theorem chain_has : ∀ {x : Str} {ps : List (Nat × Str)} {k : Nat}, (∃ n, (x, n) ∈ Spec.chain x ps k) ∧ ∀ p ∈ ps, ∃ n, (p.2, n) ∈ Spec.chain x ps k
  | x, [], k => ⟨⟨k, by simp [Spec.chain]⟩, by simp⟩
  | x, p :: ps, k => by
    have ih := chain_has (x := p.2) (ps := ps) (k := k)
    refine ⟨⟨p.1, by simp [Spec.chain]⟩, fun q hq => ?_⟩
    rcases List.mem_cons.1 hq with rfl | hq
    · obtain ⟨n, h⟩ := ih.1
      exact ⟨n, List.mem_cons_of_mem _ h⟩
    · obtain ⟨n, h⟩ := ih.2 q hq
      exact ⟨n, List.mem_cons_of_mem _ h⟩

theorem chain_nolt {x : Str} {ps : List (Nat × Str)} {k : Nat} (h : '<' ∉ Spec.glue (Spec.chain x ps k)) : '<' ∉ x ∧ ∀ p ∈ ps, '<' ∉ p.2 := by
  obtain ⟨⟨n, hn⟩, hp⟩ := chain_has (x := x) (ps := ps) (k := k)
  refine ⟨fun hm => h (glue_chars_in hn hm), fun p hm hc => ?_⟩
  obtain ⟨n, hn⟩ := hp p hm
  exact h (glue_chars_in hn hc)

theorem glue_nolt : ∀ {ps : List (Str × Nat)}, (∀ p ∈ ps, '<' ∉ p.1) → '<' ∉ Spec.glue ps
  | [], _ => by simp [Spec.glue]
  | [(t, k)], h => h (t, k) (by simp)
  | (t, k) :: q :: ps, h => by
    rw [glue_cons (by simp)]
    have := glue_nolt (ps := q :: ps) (fun p hp => h p (List.mem_cons_of_mem _ hp))
    simp [h (t, k) (by simp), this, nls]

theorem join_nolt : ∀ {ls : List Str}, (∀ l ∈ ls, '<' ∉ l) → '<' ∉ Spec.join t!"\n" ls
  | [], _ => by simp [Spec.join]
  | [l], h => by simpa [Spec.join] using h
  | l :: m :: ls, h => by
    rw [Spec.join]
    have := join_nolt (ls := m :: ls) (fun x hx => h x (List.mem_cons_of_mem _ hx))
    simp [h l (by simp), this]

theorem sh_seen {U : Uni} {lite r : Bool} {br : Str} {t : Spec.Marked} (hbr : Spec.IsBreak br) (h : t.Ok U.isLu lite)
    (hn : r = true ∨ '<' ∉ t.source) : SafeHtml ((t.seen r).html br) := by
  cases r with
  | true => exact sh_marked hbr h
  | false => exact sh_marked_plain hbr h (hn.resolve_left (by decide))

theorem verbatim_nolt {r : Bool} {ls : List Str} {more : List (Nat × List Str)}
    (hn : r = true ∨ '<' ∉ Spec.verbatimText ls more) : '<' ∉ Spec.verbatimText (Spec.escapedLines r ls) (Spec.escapedMore r more) := by
  cases r with
  | false => exact hn.resolve_left (by decide)
  | true =>
    have esc : ∀ l : List Str, '<' ∉ Spec.join t!"\n" (l.map (Spec.escape false)) := by
      refine fun l => join_nolt fun x hx => ?_
      obtain ⟨y, -, rfl⟩ := List.mem_map.1 hx
      exact escape_notag _ _
    refine glue_nolt fun q hq => ?_
    rcases chain_from hq with e | ⟨p, hp, e⟩
    · rw [e]; exact esc ls
    · rw [e]
      obtain ⟨x, hx, rfl⟩ := List.mem_map.1 hp
      obtain ⟨y, -, rfl⟩ := List.mem_map.1 hx
      exact esc y.2

theorem sh_item {U : Uni} {lite r k : Bool} {br base : Str} {b : Spec.ExItem} {n : Nat} {N : Spec.Numbers} {M : Spec.Notes} (hbr : Spec.IsBreak br)
    (hb : Spec.PlainBase base) (h : b.Ok U.isLu U.isNd lite r) (hn : r = true ∨ '<' ∉ Spec.glue (b.pieces n)) : SafeHtml (b.html br r k base N M) := by
  cases b with
  | one b => exact sh_im hbr hb h hn
  | verbatim tag a ls more =>
    have h1 := h.1.2.1.1
    simp only [Spec.ExItem.html]
    split
    · refine sh_el (by decide) (sa_atts fun g hg => h1 g ?_) (sh_el (by decide) (sa_attr (by decide) (val_lang h1)) (.text (escape_notag _ _)))
      exact (List.mem_filter.1 hg).1
    · split
      · exact sh_el (by decide) (sa_atts h1) (.text (escape_notag _ _))
      · refine .text (verbatim_nolt (hn.imp id fun hn => ?_))
        have := chain_nolt hn
        refine glue_nolt fun q hq => ?_
        rcases chain_from hq with e | ⟨p, hp, e⟩
        · rw [e]; exact fun hm => this.1 (by simp [hm])
        · rw [e]; exact this.2 p hp
  | styled tag a t more =>
    have h1 := h.1.2.1.1
    have ht : tag ∈ Spec.elementNames := block_names h.1.2.2.2.2.1
    refine sh_glue fun q hq => ?_
    rcases chain_from hq with e | ⟨p, hp, e⟩
    · rw [e]
      exact sh_el ht (sa_atts h1) (sh_seen hbr h.1.1 (hn.imp id fun hn hm => (chain_nolt hn).1 (by simp [hm])))
    · rw [e]
      obtain ⟨x, hx, rfl⟩ := List.mem_map.1 hp
      exact sh_el ht (sa_atts h1) (sh_seen hbr (h.2 x hx).1 (hn.imp id fun hn => (chain_nolt hn).2 (x.1, x.2.source) (List.mem_map.2 ⟨x, hx, rfl⟩)))
  | quoted a t more =>
    have h1 := h.1.2.1.1
    refine sh_el (by decide) (sa_atts h1) (.append (h := t!"\n\t") (.text (by decide)) (.append (sh_glue fun q hq => ?_) (.text (by decide))))
    rcases chain_from hq with e | ⟨p, hp, e⟩
    · rw [e]
      exact sh_el (by decide) (sa_atts h1) (sh_seen hbr h.1.1 (hn.imp id fun hn hm => (chain_nolt hn).1 (by simp [hm])))
    · rw [e]
      obtain ⟨y, hy, rfl⟩ := List.mem_map.1 hp
      obtain ⟨x, hx, rfl⟩ := List.mem_map.1 hy
      exact .append (h := t!"\t") (.text (by decide)) (sh_el (by decide) (sa_atts h1)
        (sh_seen hbr (h.2 x hx).1 (hn.imp id fun hn => (chain_nolt hn).2 (x.1, x.2.source) (List.mem_map.2 ⟨x, hx, rfl⟩))))

theorem sh_exDoc {U : Uni} {lite r k : Bool} {br base : Str} (hbr : Spec.IsBreak br) (hb : Spec.PlainBase base) :
    ∀ {ds : List (Spec.ExItem × Nat)} {N : Spec.Numbers} {M : Spec.Notes},
      (∀ d ∈ ds, d.1.Ok U.isLu U.isNd lite r ∧ (r = true ∨ '<' ∉ Spec.glue (d.1.pieces d.2))) →
      ∀ p ∈ Spec.exHtml br r k base N M ds, SafeHtml p.1
  | [], _, _, _, p, hp => by simp [Spec.exHtml] at hp
  | d :: ds, N, M, h, p, hp => by
    rw [Spec.exHtml] at hp
    rcases List.mem_cons.1 hp with rfl | hp
    · exact sh_item hbr hb (h d (by simp)).1 (h d (by simp)).2
    · exact sh_exDoc hbr hb (fun x hx => h x (List.mem_cons_of_mem _ hx)) p hp

/-- **C93, C94, part, for extended blocks.** In restricted mode, or without `<` in it, a document as in
C67 becomes HTML that consists of Textile's own elements. -/
theorem C93_C94_extended_partial (E : Env) (hU : UniOk E.U) (fuel : Nat) (hf : 3 ≤ fuel) (cfg : Cfg) (base : Str)
    (hb : Spec.PlainBase base) (huid : cfg.uid = t!"textileRef:" ++ base ++ t!":") (hp : cfg.linkPrefix = base ++ t!"-")
    (hz : cfg.getSizes = false) (hno : cfg.noimage = false)
    (hbt : cfg.blockTags = true) (hsan : cfg.sanitizer = none) (hdep : 1 ≤ cfg.maxSpanDepth)
    (ok : Char → Prop) (hL : Lowers E.U ok) (ha : ∀ c, c.toNat < 128 → ok c)
    (ds : List (Spec.ExItem × Nat)) (hne : ds ≠ []) (hok : ∀ d ∈ ds, d.1.Ok E.U.isLu E.U.isNd cfg.lite cfg.restricted)
    (hend : Spec.Ended cfg.lite cfg.restricted ds) (hc : ∀ d ∈ ds, ∀ c ∈ d.1.chars, ok c)
    (hres : ∀ d ∈ ds, d.1.Resolved (Spec.Resolves E.urlParse E.urlJoin cfg.restricted) (Spec.Reads E.urlParse E.urlJoin) cfg.rel)
    (htok : ¬ cfg.uid <:+: Spec.exSource ds)
    (hn : Spec.exMarks ds < 2 ^ 31) (hlt : cfg.restricted = true ∨ '<' ∉ Spec.exSource ds) :
    ∃ out, parseFresh E fuel cfg (Spec.exSource ds) = .ok out ∧ Spec.SafeHtml out ∧ Spec.OnlyTags Spec.safeTags out := by
  have h := C67_extended E hU fuel hf cfg base hb huid hp hz hno hbt hsan hdep ok hL ha ds hne hok hend hc hres htok hn
  have hs : SafeHtml _ := sh_glue (sh_exDoc (U := E.U) (lite := cfg.lite) (r := cfg.restricted) (k := cfg.alignClass.getD cfg.html5)
    (br := if cfg.html5 then t!"<br>" else t!"<br />") (by split; exact .inl rfl; exact .inr rfl) hb (N := fun _ => 1) (M := ⟨[], 0⟩)
    fun d hd => ⟨hok d hd, hlt.imp id fun hlt hm => hlt ((glue_flat (f := fun d : Spec.ExItem × Nat => d.1.pieces d.2) hd).subset hm)⟩)
  exact ⟨_, h, hs, safe_tags hs⟩

/-! ## Endnotes -/

/-- What is kept of the notes has no tags. -/
def Spotless (B : Spec.Book) : Prop :=
  ∀ n ∈ B.ends.notes, '<' ∉ n.label ∧ ∀ d, n.body = some d → SafeAtts d.atts ∧ '<' ∉ d.text

theorem spotless_change {f : Spec.EndNote → Spec.EndNote} {B : Spec.Book} {l : Str} {F : Spec.Notes} (h : Spotless B)
    (hf : ∀ n, '<' ∉ n.label ∧ (∀ d, n.body = some d → SafeAtts d.atts ∧ '<' ∉ d.text) →
      '<' ∉ (f n).label ∧ ∀ d, (f n).body = some d → SafeAtts d.atts ∧ '<' ∉ d.text) : Spotless ⟨F, B.ends.change l f⟩ := by
  intro n hn
  obtain ⟨m, hm, rfl⟩ := List.mem_map.1 hn
  split
  · exact hf m (h m hm)
  · exact h m hm

theorem spotless_refer {B : Spec.Book} {l : Str} (h : Spotless B) (hl : '<' ∉ l) : Spotless (B.refer l) := by
  unfold Spec.Book.refer
  split
  · exact spotless_change h fun n hn => hn
  · intro n hn
    rcases List.mem_append.1 hn with hn | hn
    · exact h n hn
    · rw [List.mem_singleton.1 hn]
      exact ⟨hl, fun d hd => by cases hd⟩

theorem spotless_define {B : Spec.Book} {l : Str} {d : Spec.NoteBody} (h : Spotless B) (hd : SafeAtts d.atts ∧ '<' ∉ d.text) :
    Spotless (B.define l d) := by
  unfold Spec.Book.define
  split
  · split
    · exact h
    · refine spotless_change h fun n hn => ⟨hn.1, fun e he => ?_⟩
      cases he
      exact hd
  · split
    · exact h
    · exact h

theorem label_nolt {l : Str} (h : Spec.isLabel l) : '<' ∉ l := fun hm => absurd (h.2 _ hm) (by decide)

theorem spotless_refs : ∀ {rs : List (Str × Str)} {B : Spec.Book}, Spotless B → (∀ r ∈ rs, Spec.isLabel r.1) → Spotless (rs.foldl (fun B r => B.refer r.1) B)
  | [], _, h, _ => h
  | r :: rs, _, h, hl => spotless_refs (rs := rs) (spotless_refer h (label_nolt (hl r (by simp)))) fun x hx => hl x (List.mem_cons_of_mem _ hx)

theorem spotless_block {U : Uni} {lite r : Bool} {b : Spec.EnBlock} {B : Spec.Book} (h : b.Ok U.isLu U.isNd lite r) (hB : Spotless B) : Spotless (b.book B r) := by
  cases b with
  | other b => exact hB
  | para t => exact spotless_refs hB h.1.labels
  | styled tag a t => exact spotless_refs hB h.1.labels
  | define label back groups t => exact spotless_define hB ⟨sa_atts h.2.1.1, prose_nolt h.2.2.2.prose⟩

theorem spotless_blocks {U : Uni} {lite r : Bool} : ∀ {ds : List (Spec.EnBlock × Nat)} {B : Spec.Book},
    (∀ d ∈ ds, d.1.Ok U.isLu U.isNd lite r) → Spotless B → Spotless (Spec.enBook r B ds)
  | [], _, _, h => h
  | d :: ds, _, hd, h => spotless_blocks (ds := ds) (fun x hx => hd x (List.mem_cons_of_mem _ hx)) (spotless_block (hd d (by simp)) h)

theorem val_note {t : Str} (h : Val t) : Val (Spec.noteName t) := Val.append (a := t!"note") ⟨by decide, by decide⟩ h
theorem val_noteref {t : Str} (h : Val t) : Val (Spec.noterefName t) := Val.append (a := t!"noteref") ⟨by decide, by decide⟩ h

theorem numeral_nolt (n : Nat) : '<' ∉ Spec.numeral n := (Val.numeral n).2

theorem sh_endRef {base l : Str} (hb : Spec.PlainBase base) (B : Spec.Book) : SafeHtml (B.refHtml base l) := by
  have hv : ∀ o : Option Spec.EndNote, Val (match o with | some _ => [] | none => Spec.noteId base (B.foot.last + 2)) := by
    intro o
    cases o
    · exact val_id hb _
    · exact ⟨by simp, by simp⟩
  exact sh_el (by decide) .nil (sh_el (by decide) (sa_some (by decide) (val_hash (val_note (hv _))))
    (sh_el (by decide) (sa_some (by decide) (val_noteref (val_id hb _))) (.text (numeral_nolt _))))

theorem sh_endRefs {U : Uni} {br base : Str} (hbr : Spec.IsBreak br) (hb : Spec.PlainBase base) : ∀ {rs : List (Str × Str)} {B : Spec.Book},
    (∀ r ∈ rs, Spec.Prose U.isLu r.2) → SafeHtml (Spec.endRefsHtml br base B rs)
  | [], _, _ => .text (by simp [Spec.endRefsHtml])
  | r :: rs, _, h => .append (sh_endRef hb _) (.append (sh_prose hbr (h r (by simp))) (sh_endRefs hbr hb fun x hx => h x (List.mem_cons_of_mem _ hx)))

theorem sh_enText {U : Uni} {br base : Str} {t : Spec.EnText} {B : Spec.Book} (hbr : Spec.IsBreak br) (hb : Spec.PlainBase base)
    (h : t.Ok U.isLu) : SafeHtml (t.html br base B) :=
  .append (sh_prose hbr (h.texts t.lead (by simp [Spec.EnText.texts])).1)
    (sh_endRefs hbr hb fun r hr => (h.texts r.2 (List.mem_cons_of_mem _ (List.mem_map.2 ⟨r, hr, rfl⟩))).1)

theorem image_names {lite : Bool} {tag : Str} (h : tag ∈ Spec.imageBlockTags lite) : tag ∈ Spec.elementNames := by
  cases lite <;> revert tag <;> decide

theorem sh_enBlock {U : Uni} {lite r k : Bool} {br base : Str} {b : Spec.EnBlock} {N : Spec.Numbers} {B : Spec.Book} (hbr : Spec.IsBreak br)
    (hb : Spec.PlainBase base) (h : b.Ok U.isLu U.isNd lite r) (hn : r = true ∨ '<' ∉ b.source) {x : Str} (hx : b.html br r k base N B = some x) : SafeHtml x := by
  cases b with
  | other b => cases hx; exact sh_im hbr hb h hn
  | para t => cases hx; exact sh_el (by decide) .nil (sh_enText hbr hb h.1)
  | styled tag a t => cases hx; exact sh_el (image_names h.2.2.2.2.1) (sa_atts h.2.1.1) (sh_enText hbr hb h.1)
  | define label back groups t => cases hx

theorem sh_enHtml {U : Uni} {lite r k : Bool} {br base : Str} (hbr : Spec.IsBreak br) (hb : Spec.PlainBase base) :
    ∀ {ds : List (Spec.EnBlock × Nat)} {N : Spec.Numbers} {B : Spec.Book},
      (∀ d ∈ ds, d.1.Ok U.isLu U.isNd lite r ∧ (r = true ∨ '<' ∉ d.1.source)) →
      ∀ p ∈ Spec.enHtml br r k base N B ds, SafeHtml p.1
  | [], _, _, _, p, hp => by simp [Spec.enHtml] at hp
  | d :: ds, N, M, h, p, hp => by
    rw [Spec.enHtml] at hp
    rcases List.mem_append.1 hp with hp | hp
    · obtain ⟨x, hx, rfl⟩ := List.mem_map.1 hp
      exact sh_enBlock hbr hb (h d (by simp)).1 (h d (by simp)).2 (Option.mem_toList.1 hx)
    · exact sh_enHtml hbr hb (fun x hx => h x (List.mem_cons_of_mem _ hx)) p hp

/-! ### The list -/

theorem letter_nolt (i : Nat) : '<' ∉ [Spec.backLetter i] := by
  intro h
  have h := List.mem_singleton.1 h
  by_cases hv : (97 + i).isValidChar
  · have e : Spec.backLetter i = Char.ofNatAux (97 + i) hv := by simp [Spec.backLetter, Char.ofNat, hv]
    rw [e] at h
    have h1 : ('<' : Char).toNat = 97 + i := congrArg Char.toNat h
    have h2 : ('<' : Char).toNat = 60 := by decide
    omega
  · have e : Spec.backLetter i = '\x00' := by simp [Spec.backLetter, Char.ofNat, hv]; rfl
    rw [e] at h
    exact absurd h (by decide)

theorem sh_backLink {base : Str} (hb : Spec.PlainBase base) (r i : Nat) : SafeHtml (Spec.noteBackLink base r i) :=
  sh_el (by decide) .nil (sh_el (by decide) (sa_some (by decide) (val_hash (val_noteref (val_id hb _)))) (.text (letter_nolt i)))

theorem sh_join {sep : Str} (hs : '<' ∉ sep) : ∀ {ls : List Str}, (∀ l ∈ ls, SafeHtml l) → SafeHtml (Spec.join sep ls)
  | [], _ => .text (by simp [Spec.join])
  | [l], h => by simpa [Spec.join] using h
  | l :: m :: ls, h => by
    rw [Spec.join]
    rw [List.append_assoc]
    exact .append (h l (by simp)) (.append (.text hs) (sh_join hs fun x hx => h x (List.mem_cons_of_mem _ hx)))

theorem sh_backLinks {base : Str} (hb : Spec.PlainBase base) : ∀ {rs : List Nat} {i : Nat}, ∀ l ∈ Spec.backLinksFrom base i rs, SafeHtml l
  | [], _, l, h => by cases h
  | r :: rs, i, l, h => by
    rcases List.mem_cons.1 h with rfl | h
    · exact sh_backLink hb _ _
    · exact sh_backLinks hb l h

theorem sh_links {base : Str} (hb : Spec.PlainBase base) (n : Spec.EndNote) : SafeHtml (n.links base) := by
  unfold Spec.EndNote.links
  split
  · exact sh_join (by decide) (sh_backLinks hb)
  · exact sh_flatMap fun r _ => sh_backLink hb r 0
  · exact .text (by simp)

theorem sh_listItem {base : Str} (hb : Spec.PlainBase base) {n : Spec.EndNote}
    (h : '<' ∉ n.label ∧ ∀ d, n.body = some d → SafeAtts d.atts ∧ '<' ∉ d.text) : SafeHtml (n.item base) := by
  unfold Spec.EndNote.item
  split
  · rename_i d hd
    exact sh_el (by decide) (h.2 d hd).1 (.append (sh_links hb n) (.append (sh_el (by decide) (sa_some (by decide) (val_note (val_id hb _))) (.text (by decide)))
      (.text (h.2 d hd).2)))
  · exact sh_el (by decide) .nil (.append (sh_links hb n) (.append (.text (by decide)) (.append (.text h.1) (.text (by decide)))))

theorem insert_in : ∀ {n m : Spec.EndNote} {l : List Spec.EndNote}, m ∈ Spec.insertByNumeral n l → m = n ∨ m ∈ l
  | n, m, [], h => .inl (List.mem_singleton.1 h)
  | n, m, x :: l, h => by
    rw [Spec.insertByNumeral] at h
    split at h
    · exact List.mem_cons.1 h
    · rcases List.mem_cons.1 h with rfl | h
      · exact .inr (by simp)
      · exact (insert_in h).imp id (List.mem_cons_of_mem _)

theorem listed_in {m : Spec.EndNote} : ∀ {l : List Spec.EndNote}, m ∈ l.foldr Spec.insertByNumeral [] → m ∈ l
  | [], h => h
  | x :: l, h => by
    rcases insert_in h with rfl | h
    · simp
    · exact List.mem_cons_of_mem _ (listed_in h)

theorem sh_list {base : Str} (hb : Spec.PlainBase base) {B : Spec.Book} (h : Spotless B) : SafeHtml (B.ends.list base) := by
  refine sh_el (by decide) .nil (.append (h := t!"\n") (.text (by decide)) (.append (sh_join (by decide) fun l hl => ?_) (.text (by decide))))
  obtain ⟨n, hn, rfl⟩ := List.mem_map.1 hl
  exact .append (h := t!"\t\t") (.text (by decide)) (sh_listItem hb (h n (listed_in hn)))

theorem sh_enDoc {U : Uni} {lite r k : Bool} {br base : Str} (hbr : Spec.IsBreak br) (hb : Spec.PlainBase base) {d : Spec.EnDoc}
    (h : d.Ok U.isLu U.isNd lite r) (hn : ∀ b ∈ d.blocks, r = true ∨ '<' ∉ b.1.source) : SafeHtml (d.html br r k base) := by
  have h1 : ∀ b ∈ d.before, b.1.Ok U.isLu U.isNd lite r ∧ (r = true ∨ '<' ∉ b.1.source) := fun b hm =>
    ⟨h.blocks b (List.mem_append_left _ hm), hn b (List.mem_append_left _ hm)⟩
  have hB : Spotless (d.book r) := spotless_blocks h.blocks (by intro n hn; cases hn)
  refine sh_glue fun p hp => ?_
  rcases List.mem_append.1 hp with hp | hp
  · exact sh_enHtml hbr hb h1 p hp
  · cases e : d.list with
    | none => rw [e] at hp; cases hp
    | some x =>
      obtain ⟨n, after⟩ := x
      rw [e] at hp
      rcases List.mem_cons.1 hp with rfl | hp
      · exact sh_list hb hB
      · refine sh_enHtml (U := U) (lite := lite) hbr hb (fun b hm => ?_) p hp
        have : b ∈ d.blocks := by
          unfold Spec.EnDoc.blocks
          rw [e]
          exact List.mem_append_right _ hm
        exact ⟨h.blocks b this, hn b this⟩

theorem source_char {d : Spec.EnDoc} {b : Spec.EnBlock × Nat} (hm : b ∈ d.blocks) {c : Char} (hc : c ∈ b.1.source) : c ∈ d.source := by
  unfold Spec.EnDoc.source
  refine glue_chars_in (p := (b.1.source, b.2)) ?_ hc
  rcases List.mem_append.1 hm with h | h
  · exact List.mem_append_left _ (List.mem_map.2 ⟨b, h, rfl⟩)
  · cases e : d.list with
    | none => rw [e] at h; cases h
    | some x =>
      obtain ⟨n, after⟩ := x
      rw [e] at h
      exact List.mem_append_right _ (List.mem_cons_of_mem _ (List.mem_map.2 ⟨b, h, rfl⟩))

/-- **C93, C94, part, for endnotes.** In restricted mode, or without `<` in it, a document as in C65
becomes HTML that consists of Textile's own elements. -/
theorem C93_C94_endnotes_partial (E : Env) (hU : UniOk E.U) (fuel : Nat) (hf : 3 ≤ fuel) (cfg : Cfg) (base : Str)
    (hb : Spec.PlainBase base) (huid : cfg.uid = t!"textileRef:" ++ base ++ t!":") (hp : cfg.linkPrefix = base ++ t!"-")
    (hz : cfg.getSizes = false) (hno : cfg.noimage = false)
    (hbt : cfg.blockTags = true) (hsan : cfg.sanitizer = none) (hdep : 1 ≤ cfg.maxSpanDepth)
    (ok : Char → Prop) (hL : Lowers E.U ok) (ha : ∀ c, c.toNat < 128 → ok c)
    (d : Spec.EnDoc) (hok : d.Ok E.U.isLu E.U.isNd cfg.lite cfg.restricted)
    (hc : ∀ b ∈ d.blocks, ∀ c ∈ b.1.chars, ok c)
    (hres : ∀ b ∈ d.blocks, b.1.Resolved (Spec.Resolves E.urlParse E.urlJoin cfg.restricted) (Spec.Reads E.urlParse E.urlJoin) cfg.rel)
    (htok : ¬ cfg.uid <:+: d.source) (hn : d.marks < 2 ^ 31) (hlt : cfg.restricted = true ∨ '<' ∉ d.source) :
    ∃ out, parseFresh E fuel cfg d.source = .ok out ∧ Spec.SafeHtml out ∧ Spec.OnlyTags Spec.safeTags out := by
  have h := C65_endnotes E hU fuel hf cfg base hb huid hp hz hno hbt hsan hdep ok hL ha d hok hc hres htok hn
  have hs : SafeHtml _ := sh_enDoc (U := E.U) (lite := cfg.lite) (r := cfg.restricted) (k := cfg.alignClass.getD cfg.html5)
    (br := if cfg.html5 then t!"<br>" else t!"<br />") (by split; exact .inl rfl; exact .inr rfl) hb hok
    fun b hm => hlt.imp id fun hlt hc => hlt (source_char hm hc)
  exact ⟨_, h, hs, safe_tags hs⟩

/-! ## Examples -/

/-- A document with two notes and a list of them. -/
theorem C93_C94_endnotes_ex : ∃ out, parseFresh demoEnv 3 demoCfg
    t!"Mice[#b]\nand cats[#a].[#b]\n\nnote#b(x). see below\n\nSee !>(photo){border:none}/cat.png(R&D's cat)!:http://a.org/cats\nand !http://a.org/b.png!.\n\n\nnotelist.\n\nh2. More[#b] text\n\nnote#a^. of all kinds" =
    .ok out ∧ Spec.SafeHtml out ∧ Spec.OnlyTags Spec.safeTags out :=
  C93_C94_endnotes_partial demoEnv UniOk.demo 3 (by decide) demoCfg t!"abc" plainBase_demo rfl rfl rfl rfl rfl rfl (by decide)
    _ demo_lowers (fun _ h => h) demoEnDoc demoEnDoc_ok (by decide +kernel) demoEnDoc_res (by decide +kernel) (by decide) (.inr (by decide +kernel))

def demoSafeEx : List (Spec.ExItem × Nat) :=
  [(.verbatim t!"notextile" {} [t!"<script>alert(1)</script>"] [(0, [t!"<script>x</script>"])], 0), (.styled t!"p" {} ⟨t!"One", []⟩ [(0, ⟨t!"and two", []⟩)], 0)]

theorem demoSafeEx_ok : ∀ d ∈ demoSafeEx, d.1.Ok demoUni.isLu demoUni.isNd false true := by
  intro d hd
  simp only [demoSafeEx, List.mem_cons, List.not_mem_nil, or_false] at hd
  rcases hd with rfl | rfl
  · refine ⟨⟨⟨by decide, by simp⟩, ⟨by simp, by simp⟩, fun _ => trivial, .inl rfl, by decide, fun _ => ⟨?_, by decide, fun h => absurd h (by decide)⟩⟩, ?_⟩
    · intro l hl
      rw [List.mem_singleton.1 hl]
      exact ⟨not_of_contains (by decide), not_of_contains (by decide)⟩
    · intro p hp
      rw [List.mem_singleton.1 hp]
      refine ⟨continues_of_B (by decide) rfl (by decide), fun _ => ⟨?_, by decide, fun h => absurd h (by decide)⟩⟩
      intro l hl
      rw [List.mem_singleton.1 hl]
      exact ⟨not_of_contains (by decide), not_of_contains (by decide)⟩
  · refine ⟨⟨plain_ok (by decide) rfl (by decide) (by decide), ⟨by simp, by simp⟩, fun _ => trivial, .inl rfl, by decide, fun _ => by decide⟩, ?_⟩
    intro p hp
    rw [List.mem_singleton.1 hp]
    exact ⟨plain_ok (by decide) rfl (by decide) (by decide), noBlockStart_head (by decide), fun _ => by decide⟩

/-- Two scripts in an extended verbatim block, in restricted mode. -/
theorem C93_C94_extended_ex : ∃ out, parseFresh demoEnv 3 restrictedCfg t!"notextile.. <script>alert(1)</script>\n\n<script>x</script>\n\np.. One\n\nand two" = .ok out ∧
    Spec.SafeHtml out ∧ Spec.OnlyTags Spec.safeTags out :=
  C93_C94_extended_partial demoEnv UniOk.demo 3 (by decide) restrictedCfg t!"abc" plainBase_demo rfl rfl rfl rfl rfl rfl (by decide)
    _ demo_lowers (fun _ h => h) demoSafeEx (by decide) demoSafeEx_ok ⟨fun _ => trivial, trivial⟩ (by decide +kernel) (by
      intro d hd
      simp only [demoSafeEx, List.mem_cons, List.not_mem_nil, or_false] at hd
      rcases hd with rfl | rfl <;> simp [Spec.ExItem.Resolved, Spec.Marked.Resolved]) (by decide +kernel) (by decide) (.inl rfl)

end Rustextile
