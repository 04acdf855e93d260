import Verif.Document
import Verif.Props.Whole
import Verif.Props.Html

/-!
# The steps after the block parser, for documents made of simple blocks
-/

namespace Rustextile

open Prog

/-! ## Words in texts -/

theorem containsStr_sep {k a b : Str} {c : Char} (hc : c ∉ k) (hk : k ≠ []) (ha : containsStr k a = false)
    (hb : containsStr k b = false) : containsStr k (a ++ c :: b) = false := by
  cases h : containsStr k (a ++ c :: b) with
  | false => rfl
  | true =>
    exfalso
    obtain ⟨x, y, e⟩ := containsStr_iff.1 h
    rw [List.append_eq_append_iff] at e
    rcases e with ⟨z, rfl, e⟩ | ⟨z, rfl, e⟩
    · cases z with
      | nil =>
        cases k with
        | nil => exact hk rfl
        | cons d k => simp at e; exact hc (by simp [e.1])
      | cons d z =>
        simp at e
        rw [containsStr_iff.2 ⟨z, y, e.2⟩] at hb; cases hb
    · rw [List.append_eq_append_iff] at e
      rcases e with ⟨u, rfl, e⟩ | ⟨u, rfl, e⟩
      · rw [containsStr_iff.2 ⟨x, u, rfl⟩] at ha; cases ha
      · cases u with
        | nil => rw [List.append_nil, containsStr_iff.2 ⟨x, [], by simp⟩] at ha; cases ha
        | cons d u => simp at e; exact hc (by simp [e.1])

theorem encChar_plain {q : Bool} {c : Char} (h : c ∉ t!"&<>\"'") : encChar q false c = [c] := by
  simp at h
  simp [encChar, h]

theorem encChar_special {q : Bool} {c : Char} : encChar q false c = [c] ∨
    ∃ e, encChar q false c = e ++ [';'] ∧ e.head? = some '&' ∧ ':' ∉ e := by
  unfold encChar
  simp only [Bool.false_and, Bool.false_eq_true, if_false]
  (repeat' split) <;> first
    | exact .inl rfl
    | exact .inr ⟨t!"&amp", rfl, rfl, by decide⟩
    | exact .inr ⟨t!"&lt", rfl, rfl, by decide⟩
    | exact .inr ⟨t!"&gt", rfl, rfl, by decide⟩
    | exact .inr ⟨t!"&quot", rfl, rfl, by decide⟩
    | exact .inr ⟨t!"&#39", rfl, rfl, by decide⟩

theorem prefix_enc {q : Bool} : ∀ {k t : Str}, '&' ∉ k → k <+: encodeHtml t q false → k <+: t
  | [], _, _, _ => List.nil_prefix
  | x :: k, [], _, h => by simp [encodeHtml] at h
  | x :: k, c :: t, hk, h => by
    simp at hk
    rw [encodeHtml, List.flatMap_cons] at h
    rcases encChar_special (q := q) (c := c) with e | ⟨e', e, he, -⟩
    · rw [e, List.singleton_append, List.cons_prefix_cons] at h
      rw [h.1, List.cons_prefix_cons]
      exact ⟨rfl, prefix_enc hk.2 h.2⟩
    · rw [e] at h
      cases e' with
      | nil => simp at he
      | cons y e' =>
        simp at he; subst he
        rw [List.append_assoc, List.cons_append, List.cons_prefix_cons] at h
        exact absurd h.1.symm hk.1

/-- Escaping does not create the token. -/
theorem containsStr_enc {q : Bool} {k : Str} (h1 : '&' ∉ k) (h2 : ';' ∉ k) (h3 : ':' ∈ k) : ∀ {t : Str},
    containsStr k t = false → containsStr k (encodeHtml t q false) = false
  | [], h => h
  | c :: t, h => by
    have ih := containsStr_enc (q := q) h1 h2 h3 (containsStr_false_cons h)
    rw [encodeHtml, List.flatMap_cons]
    rcases encChar_special (q := q) (c := c) with e | ⟨e', e, he, hc⟩
    · rw [e, List.singleton_append, containsStr, Bool.or_eq_false_iff]
      refine ⟨?_, ih⟩
      rw [Bool.eq_false_iff]
      intro hp
      have : k <+: c :: t := prefix_enc (q := q) h1 (by
        rw [encodeHtml, List.flatMap_cons, e]; exact List.isPrefixOf_iff_prefix.1 hp)
      rw [containsStr, List.isPrefixOf_iff_prefix.2 this] at h
      cases h
    · rw [e, List.append_assoc]
      exact containsStr_sep h2 (by rintro rfl; simp at h3) (containsStr_false_of_mem h3 hc) ih

theorem uid_chars {base : Str} (hb : Spec.PlainBase base) : '&' ∉ uidOf base ∧ ';' ∉ uidOf base ∧ '<' ∉ uidOf base ∧ '>' ∉ uidOf base ∧
    '\n' ∉ uidOf base ∧ ' ' ∉ uidOf base ∧ ':' ∈ uidOf base ∧ uidOf base ≠ [] := by
  have hc := hb.chars
  have key : ∀ c : Char, c.toNat < 48 ∨ (58 < c.toNat ∧ c.toNat < 65) → c ∉ t!"textileRef::" → c ∉ uidOf base := by
    intro c h1 h2 hm
    simp only [uidOf, List.mem_append] at hm
    simp at h2
    rcases hm with (hm | hm) | hm
    · simp at hm; grind
    · have := hc c hm; omega
    · simp at hm; grind
  exact ⟨key _ (by decide) (by decide), key _ (by decide) (by decide), key _ (by decide) (by decide), key _ (by decide) (by decide),
    key _ (by decide) (by decide), key _ (by decide) (by decide), by simp [uidOf], by simp [uidOf]⟩

/-! ## The shelf -/

def entryOf (uid : Str) (d : Nat × Spec.Block × Nat) : Option (Str × Str) :=
  match d.2.1 with
  | .verbatim _ _ => some (shelfKey uid (d.1 + 1), valueOf d.2.1)
  | _ => none

theorem shelf_after {C : Ctx} : ∀ (ds : List (Spec.Block × Nat)) (σ : PState), StoreOk C.cfg.uid σ →
    (afterAll C σ ds).shelf = σ.shelf ++ (numbered σ.refIndex ds).filterMap (entryOf C.cfg.uid)
  | [], σ, _ => by simp [afterAll, numbered]
  | (b, k) :: ds, σ, h => by
    have e : afterAll C σ ((b, k) :: ds) = afterAll C (after C σ b) ds := rfl
    have h0 : ∀ tag ls, (σ.shelved C.cfg.uid (verbatimParts tag (Spec.join t!"\n" ls)).2.2).shelf =
        σ.shelf ++ [(shelfKey C.cfg.uid (σ.refIndex + 1), (verbatimParts tag (Spec.join t!"\n" ls)).2.2)] ∧
        StoreOk C.cfg.uid (σ.shelved C.cfg.uid (verbatimParts tag (Spec.join t!"\n" ls)).2.2) := fun tag ls =>
      shelve_append (uid := C.cfg.uid) (v := (verbatimParts tag (Spec.join t!"\n" ls)).2.2) (w := { st := σ }) h
    rw [e]
    cases b with
    | comment ls => exact shelf_after ds σ h
    | verbatim tag ls =>
      have := shelf_after ds _ (h0 tag ls).2
      rw [(h0 tag ls).1, List.append_assoc] at this
      exact this
    | para ls => exact shelf_after ds σ h
    | tagged tag ls => exact shelf_after ds σ h
    | quote ls => exact shelf_after ds σ h

theorem numbered_le : ∀ {ds : List (Spec.Block × Nat)} {n : Nat} {d}, d ∈ numbered n ds → n ≤ d.1
  | [], n, d, h => by simp [numbered] at h
  | (b, k) :: ds, n, d, h => by
    rw [numbered] at h
    split at h
    · exact numbered_le h
    · rcases List.mem_cons.1 h with rfl | h
      · exact Nat.le_refl _
      · have := numbered_le h
        have : n ≤ bump n b := by cases b <;> simp [bump]
        omega

theorem numbered_unique : ∀ {ds : List (Spec.Block × Nat)} {n : Nat} {i tag ls k tag' ls' k'},
    (i, .verbatim tag ls, k) ∈ numbered n ds → (i, .verbatim tag' ls', k') ∈ numbered n ds →
    Spec.Block.verbatim tag ls = .verbatim tag' ls'
  | [], n, i, _, _, _, _, _, _, h, _ => by simp [numbered] at h
  | (b, k) :: ds, n, i, _, _, _, _, _, _, h, h' => by
    rw [numbered] at h h'
    split at h
    · rename_i hc; rw [if_pos hc] at h'; exact numbered_unique h h'
    · rename_i hc
      rw [if_neg hc] at h'
      rcases List.mem_cons.1 h with e | h <;> rcases List.mem_cons.1 h' with e' | h'
      · simp at e e'; simp; grind
      · simp only [Prod.mk.injEq] at e
        have := numbered_le h'
        rw [← e.2.1] at this
        simp only [bump] at this
        omega
      · simp only [Prod.mk.injEq] at e'
        have := numbered_le h
        rw [← e'.2.1] at this
        simp only [bump] at this
        omega
      · exact numbered_unique h h'

theorem mem_numbered : ∀ {ds : List (Spec.Block × Nat)} {n : Nat} {d}, d ∈ numbered n ds →
    (d.2.1, d.2.2) ∈ ds ∧ d.2.1.isComment = false
  | [], n, d, h => by simp [numbered] at h
  | (b, k) :: ds, n, d, h => by
    rw [numbered] at h
    split at h
    · have := mem_numbered h; exact ⟨List.mem_cons_of_mem _ this.1, this.2⟩
    · rename_i hc
      rcases List.mem_cons.1 h with rfl | h
      · exact ⟨by simp, by simpa using hc⟩
      · have := mem_numbered h; exact ⟨List.mem_cons_of_mem _ this.1, this.2⟩

theorem numbered_map {α : Type} (f : Spec.Block → Nat → α) : ∀ (ds : List (Spec.Block × Nat)) (n : Nat),
    (numbered n ds).map (fun d => f d.2.1 d.2.2) = (ds.filter (fun d => !d.1.isComment)).map (fun d => f d.1 d.2)
  | [], n => rfl
  | (b, k) :: ds, n => by
    rw [numbered]
    split
    · rename_i h; simp [h, numbered_map f ds]
    · rename_i h; simp [h, numbered_map f ds]

/-! ## Retrieval -/

theorem retrieveRound_cons (k v : Str) (sh : List (Str × Str)) (t : Str) :
    retrieveRound ((k, v) :: sh) t = retrieveRound sh (replaceStr k v t) := rfl

theorem key_ne {uid : Str} {n : Nat} : shelfKey uid n ≠ [] := by simp [shelfKey]

theorem key_nonl {base : Str} (hb : Spec.PlainBase base) (n : Nat) : '\n' ∉ shelfKey (uidOf base) n := by
  intro h
  rcases List.mem_append.1 h with h | h
  · rcases List.mem_append.1 h with h | h
    · exact (uid_chars hb).2.2.2.2.1 h
    · have := natStr_alnum h; revert this; decide
  · revert h; decide

theorem retrieve_local {base : Str} (hb : Spec.PlainBase base) : ∀ {sh : List (Str × Str)},
    (∀ e ∈ sh, ∃ n, e.1 = shelfKey (uidOf base) n) → Local (retrieveRound sh)
  | [], _ => Local.id
  | (k, v) :: sh, h => by
    obtain ⟨n, hn⟩ := h (k, v) (by simp)
    simp only at hn; subst hn
    exact (replaceStr_local (key_nonl hb n) key_ne).comp (retrieve_local hb (fun e he => h e (List.mem_cons_of_mem _ he)))

theorem turns_cons {k v a b c : Str} {sh : List (Str × Str)} (h : Turns (replaceStr k v) a b) (hl : Local (replaceStr k v))
    (h' : Turns (retrieveRound sh) b c) : Turns (retrieveRound ((k, v) :: sh)) a c :=
  Turns.comp (F := replaceStr k v) (G := retrieveRound sh) hl h h'

theorem not_key {uid p : Str} (h : containsStr uid p = false) (n : Nat) : containsStr (shelfKey uid n) p = false := by
  cases h' : containsStr (shelfKey uid n) p with
  | false => rfl
  | true =>
    obtain ⟨a, b, e⟩ := containsStr_iff.1 h'
    rw [containsStr_iff.2 ⟨a, natStr n ++ t!":shelve" ++ b, by simpa [shelfKey] using e⟩] at h
    cases h

theorem retrieve_clean {base : Str} (hb : Spec.PlainBase base) {p : Str} (hp : containsStr (uidOf base) p = false) :
    ∀ {sh : List (Str × Str)}, (∀ e ∈ sh, ∃ n, e.1 = shelfKey (uidOf base) n) → Turns (retrieveRound sh) p p
  | [], _ => fun _ _ => rfl
  | (k, v) :: sh, h => by
    obtain ⟨n, hn⟩ := h (k, v) (by simp)
    simp only at hn; subst hn
    exact turns_cons (replaceStr_turns (key_nonl hb n) (not_key hp n)) (replaceStr_local (key_nonl hb n) key_ne)
      (retrieve_clean hb hp (fun e he => h e (List.mem_cons_of_mem _ he)))

theorem retrieve_key {base : Str} (hb : Spec.PlainBase base) {a z v : Str} {m : Nat}
    (ha : ∀ c ∈ a.getLast?, c = '>') (hauid : containsStr (uidOf base) a = false) (hzc : ∀ c ∈ z.head?, c = '<')
    (hz : containsStr (uidOf base) z = false)
    (hclean : containsStr (uidOf base) (a ++ (v ++ z)) = false) :
    ∀ {sh : List (Str × Str)}, (∀ e ∈ sh, ∃ n, e.1 = shelfKey (uidOf base) n) →
      (∀ e ∈ sh, e.1 = shelfKey (uidOf base) m → e.2 = v) → (shelfKey (uidOf base) m, v) ∈ sh →
      Turns (retrieveRound sh) (a ++ (shelfKey (uidOf base) m ++ z)) (a ++ (v ++ z))
  | [], _, _, h => by simp at h
  | (k, v') :: sh, h, hu, hm => by
    obtain ⟨n, hn⟩ := h (k, v') (by simp)
    simp only at hn; subst hn
    have hgt : ∀ n, '>' ∉ shelfKey (uidOf base) n ∧ '<' ∉ shelfKey (uidOf base) n := fun n =>
      ⟨fun h => tokA_not (key_over hb n _ h) (by decide), fun h => tokA_not (key_over hb n _ h) (by decide)⟩
    by_cases hnm : n = m
    · subst hnm
      have := hu _ (List.mem_cons_self) rfl
      simp only at this; subst this
      exact turns_cons (replaceStr_token (key_nonl hb n) key_ne (fun c hc => by rw [ha c hc]; exact (hgt n).1) (not_key hauid n)
        (not_key hz n)) (replaceStr_local (key_nonl hb n) key_ne)
        (retrieve_clean hb hclean (fun e he => h e (List.mem_cons_of_mem _ he)))
    · refine turns_cons (replaceStr_turns (key_nonl hb n) ?_) (replaceStr_local (key_nonl hb n) key_ne)
        (retrieve_key hb ha hauid hzc hz hclean (fun e he => h e (List.mem_cons_of_mem _ he))
          (fun e he => hu e (List.mem_cons_of_mem _ he)) ?_)
      · -- the other placeholder is not here
        have hk : containsStr (shelfKey (uidOf base) n) (shelfKey (uidOf base) m) = false := by
          cases h' : containsStr (shelfKey (uidOf base) n) (shelfKey (uidOf base) m) with
          | false => rfl
          | true =>
            exfalso
            obtain ⟨x, y, e⟩ := containsStr_iff.1 h'
            obtain ⟨rfl, e2⟩ := uid_in_key hb (n := m) (a := x) (b := natStr n ++ t!":shelve" ++ y)
              (by rw [e]; simp [shelfKey])
            rw [show natStr n ++ t!":shelve" ++ y = natStr n ++ ':' :: (t!"shelve" ++ y) by simp,
              show natStr m ++ t!":shelve" = natStr m ++ ':' :: t!"shelve" by simp] at e2
            have := cut_eq e2 (natStr_no_colon n) (natStr_no_colon m)
            exact hnm (natStr_inj this.1)
        have h2 : containsStr (shelfKey (uidOf base) n) (shelfKey (uidOf base) m ++ z) = false := by
          cases z with
          | nil => simpa using hk
          | cons c z =>
            have : c = '<' := hzc c (by simp)
            subst this
            exact containsStr_sep (hgt n).2 key_ne hk (not_key (containsStr_false_cons hz) n)
        rcases List.eq_nil_or_concat a with rfl | ⟨a', c, rfl⟩
        · exact h2
        · have : c = '>' := ha c (by simp)
          subst this
          rw [List.concat_eq_append, List.append_assoc]
          refine containsStr_sep (hgt n).1 key_ne ?_ h2
          refine not_key ?_ n
          cases h' : containsStr (uidOf base) a' with
          | false => rfl
          | true =>
            obtain ⟨x, y, e⟩ := containsStr_iff.1 h'
            rw [containsStr_iff.2 ⟨x, y ++ ['>'], by simp [e]⟩] at hauid
            cases hauid
      · rcases List.mem_cons.1 hm with e | h
        · simp only [Prod.mk.injEq] at e
          exact absurd (shelfKey_inj e.1).symm hnm
        · exact h

/-! ## The text after retrieval -/

/-- A block after retrieval. -/
def stage2 (C : Ctx) : Spec.Block → Str
  | .verbatim tag ls => (verbatimParts tag (Spec.join t!"\n" ls)).1 ++
      ((verbatimParts tag (Spec.join t!"\n" ls)).2.2 ++ (verbatimParts tag (Spec.join t!"\n" ls)).2.1)
  | b => stage1 C 0 b

theorem join_nochar {c : Char} {sep : Str} (hs : c ∉ sep) : ∀ {ls : List Str}, (∀ l ∈ ls, c ∉ l) → c ∉ Spec.join sep ls
  | [], _ => by simp [Spec.join]
  | [l], h => h l (by simp)
  | l :: m :: ls, h => by
    rw [join_cons (by simp)]
    have := join_nochar hs (ls := m :: ls) (fun x hx => h x (List.mem_cons_of_mem _ hx))
    simp only [List.mem_append, not_or]
    exact ⟨⟨h l (by simp), hs⟩, this⟩

theorem line_nochar {up : Char → Bool} {l : Str} (h : Spec.Words up l) {c : Char} (hc : Spec.ordinaryChar c = false) : c ∉ l := by
  intro hn
  rw [h.chars _ hn] at hc; cases hc

theorem stage1_nocolon {C : Ctx} {b : Spec.Block} (h : BlockOk C b) (hv : ∀ tag ls, b ≠ .verbatim tag ls) (n : Nat) :
    ':' ∉ stage1 C n b := by
  have hbr : ':' ∉ C.cfg.brTag := by rcases brTag_cases C.cfg with e | e <;> rw [e] <;> decide
  have hj : ∀ ls, Spec.Paragraph C.U.isLu ls → ':' ∉ Spec.join C.cfg.brTag ls := fun ls hp =>
    join_nochar hbr (fun l hl => line_nochar (hp.lines l hl).toWords (by decide))
  have ht : ∀ tag ∈ brTags, ':' ∉ openTag tag ∧ ':' ∉ closeTag tag := by decide
  cases b with
  | para ls =>
    have := ht t!"p" (by decide)
    simp only [stage1, List.mem_append, not_or]
    exact ⟨this.1, hj ls h.1, this.2⟩
  | tagged tag ls =>
    have := ht tag (tagged_mem h.2.1).1
    simp only [stage1, List.mem_append, not_or]
    exact ⟨this.1, hj ls h.1, this.2⟩
  | quote ls =>
    have := ht t!"p" (by decide)
    simp only [stage1, List.mem_append, not_or]
    exact ⟨by decide, this.1, hj ls h.1, this.2, by decide⟩
  | verbatim tag ls => exact absurd rfl (hv tag ls)
  | comment ls => simp [stage1]

theorem parts_clean {base : Str} (hb : Spec.PlainBase base) {tag t : Str} (h : containsStr (uidOf base) t = false) :
    containsStr (uidOf base) ((verbatimParts tag t).1 ++ ((verbatimParts tag t).2.2 ++ (verbatimParts tag t).2.1)) = false := by
  obtain ⟨c1, c2, c3, c4, c5, c6, c7, c8⟩ := uid_chars hb
  have he := containsStr_enc (q := true) c1 c2 c7 h
  unfold verbatimParts
  split
  · exact containsStr_sep (a := t!"<pre><code") (c := '>') c4 c8 (containsStr_false_of_mem c7 (by decide))
      (containsStr_sep (c := '<') (b := t!"/code></pre>") c3 c8 he (containsStr_false_of_mem c7 (by decide)))
  · split
    · exact containsStr_sep (a := t!"<pre") (c := '>') c4 c8 (containsStr_false_of_mem c7 (by decide))
        (containsStr_sep (c := '<') (b := t!"/pre>") c3 c8 he (containsStr_false_of_mem c7 (by decide)))
    · simpa using h

theorem stage2_clean {C : Ctx} {base : Str} (D : DocCtx C base) {b : Spec.Block} (h : BlockOk C b)
    (hs : containsStr (uidOf base) b.source = false) : containsStr (uidOf base) (stage2 C b) = false := by
  by_cases hv : ∃ tag ls, b = .verbatim tag ls
  · obtain ⟨tag, ls, rfl⟩ := hv
    refine parts_clean D.plain ?_
    have := containsStr_append_right (a := tag) (b := t!". " ++ Spec.join t!"\n" ls) hs
    exact containsStr_append_right (a := t!". ") this
  · have hv' : ∀ tag ls, b ≠ .verbatim tag ls := fun tag ls e => hv ⟨tag, ls, e⟩
    have h1 := stage1_nocolon h hv' 0
    have : stage2 C b = stage1 C 0 b := by cases b <;> first | rfl | exact absurd rfl (hv' _ _)
    rw [this]
    exact containsStr_false_of_mem (uid_chars D.plain).2.2.2.2.2.2.1 h1

/-- The text after retrieval. -/
def text2 (C : Ctx) (ds : List (Spec.Block × Nat)) : Str :=
  Spec.glue ((numbered 0 ds).map (fun d => (stage2 C d.2.1, d.2.2)))

/-- The shelf after the block parser. -/
def shelfOf (C : Ctx) (ds : List (Spec.Block × Nat)) : List (Str × Str) := (numbered 0 ds).filterMap (entryOf C.cfg.uid)

theorem shelfOf_keys {C : Ctx} {base : Str} (D : DocCtx C base) {ds : List (Spec.Block × Nat)} :
    ∀ e ∈ shelfOf C ds, ∃ n, e.1 = shelfKey (uidOf base) n := by
  intro e he
  obtain ⟨⟨n, b, k⟩, hd, he⟩ := List.mem_filterMap.1 he
  cases b <;> simp [entryOf] at he
  subst he
  exact ⟨n + 1, by rw [D.uid]⟩

theorem round_text1 {C : Ctx} {base : Str} (D : DocCtx C base) {ds : List (Spec.Block × Nat)}
    (h : ∀ d ∈ ds, BlockOk C d.1) (hs : ∀ d ∈ ds, containsStr (uidOf base) d.1.source = false) :
    retrieveRound (shelfOf C ds) (text1 C ds) = text2 C ds := by
  refine (retrieve_local D.plain (shelfOf_keys D)).glue (ps := numbered 0 ds)
    (f := fun d => stage1 C d.1 d.2.1) (g := fun d => stage2 C d.2.1) (m := fun d => d.2.2) ?_
  intro d hd
  have hm := mem_numbered hd
  have hok := h _ hm.1
  have hcl := stage2_clean D hok (hs _ hm.1)
  by_cases hv : ∃ tag ls, d.2.1 = .verbatim tag ls
  · obtain ⟨tag, ls, hv⟩ := hv
    obtain ⟨n, b, k⟩ := d
    simp only at hv; subst hv
    have hcl' := hcl
    simp only [stage1, stage2, D.uid]
    have key : ∀ a z : Str, (verbatimParts tag (Spec.join t!"\n" ls)).1 = a → (verbatimParts tag (Spec.join t!"\n" ls)).2.1 = z →
        (∀ c ∈ a.getLast?, c = '>') → ':' ∉ a → (∀ c ∈ z.head?, c = '<') → ':' ∉ z →
        Turns (retrieveRound (shelfOf C ds)) ((verbatimParts tag (Spec.join t!"\n" ls)).1 ++
            (shelfKey (uidOf base) (n + 1) ++ (verbatimParts tag (Spec.join t!"\n" ls)).2.1))
          ((verbatimParts tag (Spec.join t!"\n" ls)).1 ++ ((verbatimParts tag (Spec.join t!"\n" ls)).2.2 ++
            (verbatimParts tag (Spec.join t!"\n" ls)).2.1)) := by
      intro a z ha hz h1 h2 h3 h4
      have c7 := (uid_chars D.plain).2.2.2.2.2.2.1
      refine retrieve_key D.plain (by rw [ha]; exact h1) (by rw [ha]; exact containsStr_false_of_mem c7 h2)
        (by rw [hz]; exact h3) (by rw [hz]; exact containsStr_false_of_mem c7 h4) hcl (shelfOf_keys D) ?_ ?_
      · intro e he hk
        obtain ⟨⟨n', b', k'⟩, hd', he⟩ := List.mem_filterMap.1 he
        cases b' <;> simp [entryOf] at he
        subst he
        simp only [D.uid] at hk
        have := shelfKey_inj hk
        obtain rfl : n' = n := by omega
        have := numbered_unique hd hd'
        simp only [Spec.Block.verbatim.injEq] at this
        rw [this.1, this.2]; rfl
      · exact List.mem_filterMap.2 ⟨_, hd, by simp [entryOf, D.uid, valueOf]⟩
    rcases parts_cases tag (Spec.join t!"\n" ls) with ⟨h1, h2⟩ | ⟨h1, h2⟩ | ⟨h1, h2⟩
    · exact key _ _ h1 h2 (by decide) (by decide) (by decide) (by decide)
    · exact key _ _ h1 h2 (by decide) (by decide) (by decide) (by decide)
    · exact key _ _ h1 h2 (by simp) (by decide) (by simp) (by decide)
  · have hv' : ∀ tag ls, d.2.1 ≠ .verbatim tag ls := fun tag ls e => hv ⟨tag, ls, e⟩
    have : stage2 C d.2.1 = stage1 C d.1 d.2.1 := by
      obtain ⟨n, b, k⟩ := d
      cases b <;> first | rfl | exact absurd rfl (hv' _ _)
    change Turns _ (stage1 C d.1 d.2.1) (stage2 C d.2.1)
    rw [this] at hcl ⊢
    exact retrieve_clean D.plain hcl (shelfOf_keys D)

theorem text2_clean {C : Ctx} {base : Str} (D : DocCtx C base) {ds : List (Spec.Block × Nat)}
    (h : ∀ d ∈ ds, BlockOk C d.1) (hs : ∀ d ∈ ds, containsStr (uidOf base) d.1.source = false) :
    containsStr (uidOf base) (text2 C ds) = false := by
  refine not_contains_glue (uid_chars D.plain).2.2.2.2.1 (uid_chars D.plain).2.2.2.2.2.2.2 ?_
  intro p hp
  obtain ⟨d, hd, rfl⟩ := List.mem_map.1 hp
  have hm := mem_numbered hd
  exact stage2_clean D (h _ hm.1) (hs _ hm.1)

theorem retrieve_doc {C : Ctx} {base : Str} (D : DocCtx C base) {ds : List (Spec.Block × Nat)}
    (h : ∀ d ∈ ds, BlockOk C d.1) (hs : ∀ d ∈ ds, containsStr (uidOf base) d.1.source = false) :
    retrieve (shelfOf C ds) C.fuel (text1 C ds) = .ok (text2 C ds) := by
  obtain ⟨f, hf⟩ : ∃ f, C.fuel = f + 2 := ⟨C.fuel - 2, by have := D.fuel; omega⟩
  have hc := text2_clean D h hs
  have h2 : retrieveRound (shelfOf C ds) (text2 C ds) = text2 C ds := by
    have := retrieve_clean D.plain hc (shelfOf_keys D (ds := ds)) [] (.inl rfl)
    rw [List.append_nil, (retrieve_local D.plain (shelfOf_keys D)).nil, List.append_nil] at this
    exact this
  rw [hf]
  simp only [retrieve, round_text1 D h hs]
  split
  · rfl
  · simp [h2]

/-! ## Patterns that need a word -/

/-- Matches of the pattern start with this word. -/
def Re.starts : Str → Re → Bool
  | [], _ => true
  | c :: w, .seq (.set false [.chr d]) r => c == d && Re.starts w r
  | _, _ => false

theorem Re.starts_lang {U : Uni} : ∀ {k : Str} {r : Re} {w : Str}, Re.starts k r = true → r.lang U w → k <+: w
  | [], _, _, _, _ => List.nil_prefix
  | c :: k, r, w, h, hl => by
    unfold Re.starts at h
    split at h
    · rename_i e; cases e
    · rename_i e
      cases e
      rw [Bool.and_eq_true, beq_iff_eq] at h
      rw [lang_seq] at hl
      obtain ⟨u, v, rfl, hu, hv⟩ := hl
      rw [lang_chr] at hu
      rw [hu, h.1, List.singleton_append, List.cons_prefix_cons]
      exact ⟨rfl, Re.starts_lang h.2 hv⟩
    · cases h

theorem Re.starts_search {U : Uni} {k : Str} {r : Re} {t : Str} (h : Re.starts k r = true) (ht : containsStr k t = false)
    (pre : Str) : r.search U pre t = none := by
  refine Re.search_none_lang ?_ pre
  intro a w b e hl
  obtain ⟨x, rfl⟩ := Re.starts_lang h hl
  rw [containsStr_iff.2 ⟨a, x ++ b, by rw [e]; simp⟩] at ht
  cases ht

theorem lang_lit {U : Uni} : ∀ {k w : Str}, (Re.lit k).lang U w → w = k
  | [], w, h => h
  | [c], w, h => lang_chr.1 h
  | c :: d :: k, w, h => by
    change (Re.seq (.set false [.chr c]) (Re.lit (d :: k))).lang U w at h
    rw [lang_seq] at h
    obtain ⟨u, v, rfl, hu, hv⟩ := h
    rw [lang_chr.1 hu, lang_lit hv]; rfl

theorem lit_search {U : Uni} {k : Str} {r : Re} {t : Str} (ht : containsStr k t = false) (pre : Str) :
    (Re.seq (.lit k) r).search U pre t = none := by
  refine Re.search_none_lang ?_ pre
  intro a w b e hl
  rw [lang_seq] at hl
  obtain ⟨u, v, rfl, hu, -⟩ := hl
  rw [lang_lit hu] at e
  rw [containsStr_iff.2 ⟨a, v ++ b, by rw [e]; simp⟩] at ht
  cases ht

theorem NOTELIST_starts : Re.starts t!"<p>notelist" NOTELIST_RE = true := by kernel_rfl

/-! ## The steps after the block parser -/

theorem runs_getPat {C : Ctx} (s : Site) (σ : PState) : Runs C (getPatP s) (mkPat C.cfg.uid s) σ σ := by
  rintro ⟨st, d⟩ hd rfl
  simp only [getPatP, run, World.getPat]
  cases hl : alLookup s d with
  | some re => exact ⟨_, by rw [← hd s re hl], rfl, hd⟩
  | none => exact ⟨_, rfl, rfl, Cache.valid_cons hd s⟩

theorem runs_getSt {C : Ctx} (σ : PState) : Runs C getStP σ σ σ := by
  rintro w hw rfl
  exact ⟨w, rfl, rfl, hw⟩

theorem runs_ofR {C : Ctx} {α : Type} (a : α) (σ : PState) : Runs C (ofR (.ok a)) a σ σ := Runs.pure a σ

theorem replaceAllM_none {U : Uni} {r : Re} {f : Mat → R Str} {t : Str} (h : r.search U [] t = none) :
    r.replaceAllM U f t = .ok t := by
  unfold Re.replaceAllM
  rw [Re.matches_none h]
  rfl

/-- Nothing happens to text without token after the retrieval. -/
theorem runs_rest {C : Ctx} {σ : PState} {t t2 : Str} (h : retrieve σ.shelf C.fuel t = .ok t2)
    (hc : containsStr C.cfg.uid t2 = false) :
    Runs C (do
      let st ← getStP
      let t ← ofR (retrieve st.shelf C.fuel t)
      let t := replaceStr (C.cfg.uid ++ t!":glyph:") [] t
      let t ← retrieveTags C t
      retrieveUrls C t) t2 σ σ := by
  refine (runs_getSt σ).bind ?_
  rw [h]
  refine (runs_ofR t2 σ).bind ?_
  have hsub : ∀ k : Str, C.cfg.uid <:+: k → containsStr k t2 = false := by
    rintro k ⟨x, y, rfl⟩
    cases hk : containsStr (x ++ C.cfg.uid ++ y) t2 with
    | false => rfl
    | true =>
      obtain ⟨a, b, e⟩ := containsStr_iff.1 hk
      rw [containsStr_iff.2 ⟨a ++ x, y ++ b, by rw [e]; simp⟩] at hc
      cases hc
  rw [replaceStr_none (hsub (C.cfg.uid ++ t!":glyph:") ⟨[], t!":glyph:", rfl⟩)]
  refine Runs.bind (a := t2) (σ' := σ) ?_ ?_
  · refine (runs_getSt σ).bind ((runs_getPat .ospan σ).bind ?_)
    rw [show mkPat C.cfg.uid .ospan = .seq (.lit C.cfg.uid) OSPAN_TOKEN_TAIL from rfl, replaceAllM_none (lit_search hc [])]
    refine (runs_ofR t2 σ).bind ((runs_getPat .cspan σ).bind ?_)
    rw [show mkPat C.cfg.uid .cspan = .seq (.lit (' ' :: C.cfg.uid)) CSPAN_TOKEN_TAIL from rfl,
      replaceAllM_none (lit_search (hsub _ ⟨t!" ", [], by simp⟩) [])]
    exact runs_ofR t2 σ
  · refine (runs_getPat .urls σ).bind ((runs_getSt σ).bind ?_)
    rw [show mkPat C.cfg.uid .urls = .seq (.lit C.cfg.uid) URL_TOKEN_TAIL from rfl, Re.replaceAll_none _ (lit_search hc [])]
    exact Runs.pure _ _

/-! ## No list of notes -/

theorem prefix_nochar {k p r : Str} {c : Char} (hc : c ∉ k) (h : k <+: p ++ c :: r) : k <+: p := by
  obtain ⟨x, hx⟩ := h
  rw [List.append_eq_append_iff] at hx
  rcases hx with ⟨y, rfl, -⟩ | ⟨y, rfl, h⟩
  · exact ⟨y, rfl⟩
  · cases y with
    | nil => exact ⟨[], by simp⟩
    | cons z y => simp at h; exact absurd (by simp [← h.1]) hc

theorem notelist_join {up : Char → Bool} {br : Str} {ls : List Str} {r : Str} (hb : br.head? = some '<')
    (h : Spec.Paragraph up ls) (hn : ¬ Spec.notelistWord <+: Spec.join t!"\n" ls) :
    ¬ Spec.notelistWord <+: Spec.join br ls ++ '<' :: r := by
  intro hp
  apply hn
  cases ls with
  | nil => exact absurd rfl h.ne
  | cons l ls =>
    cases br with
    | nil => simp at hb
    | cons c br =>
      simp at hb; subst hb
      cases ls with
      | nil => exact prefix_nochar (by decide) hp
      | cons m ls =>
        rw [join_cons (by simp)] at hp ⊢
        rw [List.append_assoc, List.append_assoc, List.cons_append] at hp
        have := prefix_nochar (by decide) hp
        rw [List.append_assoc]
        exact this.trans (List.prefix_append _ _)

theorem free_join {n : Str} {up : Char → Bool} {br : Str} (hn : n.head? = some '<') (hb : Free n br) : ∀ {ls : List Str},
    (∀ l ∈ ls, Spec.Line up l) → Free n (Spec.join br ls)
  | [], _ => Free.nil
  | [l], h => Free.of_head hn (line_nolt (h l (by simp)).toWords)
  | l :: m :: ls, h => by
    rw [join_cons (by simp)]
    exact ((Free.of_head hn (line_nolt (h l (by simp)).toWords)).append hb).append
      (free_join hn hb (fun x hx => h x (List.mem_cons_of_mem _ hx)))

theorem not_contains_cons {k : Str} {c : Char} {t : Str} (h : ¬ k <+: c :: t) (ht : containsStr k t = false) :
    containsStr k (c :: t) = false := by
  rw [containsStr, Bool.or_eq_false_iff]
  refine ⟨?_, ht⟩
  rw [Bool.eq_false_iff]
  exact fun hp => h (List.isPrefixOf_iff_prefix.1 hp)

theorem stage1_nolist {C : Ctx} {base : Str} (D : DocCtx C base) {b : Spec.Block} (h : BlockOk C b) (n : Nat) :
    containsStr t!"<p>notelist" (stage1 C n b) = false := by
  have hbr : Free t!"<p>notelist" C.cfg.brTag := by rcases brTag_cases C.cfg with e | e <;> rw [e] <;> exact Free.of (by decide)
  have hbh : C.cfg.brTag.head? = some '<' := by rcases brTag_cases C.cfg with e | e <;> rw [e] <;> rfl
  have hj : ∀ ls, Spec.Paragraph C.U.isLu ls → Free t!"<p>notelist" (Spec.join C.cfg.brTag ls) := fun ls hp =>
    free_join rfl hbr hp.lines
  have hp : ∀ ls z, Spec.Paragraph C.U.isLu ls → ¬ Spec.notelistWord <+: Spec.join t!"\n" ls →
      free t!"<p>notelist" z = true → containsStr t!"<p>notelist" (openTag t!"p" ++ (Spec.join C.cfg.brTag ls ++ (closeTag t!"p" ++ z))) = false := by
    intro ls z h1 h2 h3
    have hf : Free t!"<p>notelist" (t!"p>" ++ (Spec.join C.cfg.brTag ls ++ (closeTag t!"p" ++ z))) :=
      (Free.of (by decide)).append ((hj ls h1).append ((Free.of (by decide)).append (Free.of h3)))
    refine not_contains_cons (t := t!"p>" ++ (Spec.join C.cfg.brTag ls ++ (closeTag t!"p" ++ z))) ?_
      (not_contains_of_free (by simp) hf)
    intro hp
    rw [List.cons_append, List.cons_append] at hp
    simp only [List.cons_prefix_cons, true_and, List.nil_append] at hp
    exact notelist_join (r := t!"/p>" ++ z) hbh h1 h2 hp
  cases b with
  | para ls => simpa [stage1] using hp ls [] h.1 h.2.2 rfl
  | quote ls =>
    have := hp ls t!"\n</blockquote>" h.1 h.2 (by decide)
    simp only [stage1]
    refine not_contains_cons (t := t!"blockquote>\n\t" ++ _) ?_ ?_
    · rintro ⟨x, hx⟩; simp at hx
    · exact containsStr_sep (a := t!"blockquote>") (c := '\n') (b := '\t' :: _) (by decide) (by simp) (by decide)
        (containsStr_sep (a := []) (c := '\t') (by decide) (by simp) (by decide) this)
  | tagged tag ls =>
    by_cases ht : tag = t!"p"
    · subst ht
      simpa [stage1] using hp ls [] h.1 (h.2.2 rfl) rfl
    · have hm := (tagged_mem h.2.1).1
      simp only [brTags, List.mem_cons, List.not_mem_nil, or_false, ht, false_or] at hm
      simp only [stage1]
      refine not_contains_of_free (by simp) (Free.append ?_ ((hj ls h.1).append ?_)) <;>
        rcases hm with rfl | rfl | rfl | rfl | rfl | rfl <;> exact Free.of (by decide)
  | verbatim tag ls =>
    have hk : Free t!"<p>notelist" (shelfKey C.cfg.uid (n + 1)) := Free.of_head rfl (key_nolt D (n + 1))
    simp only [stage1]
    rcases parts_cases tag (Spec.join t!"\n" ls) with ⟨h1, h2⟩ | ⟨h1, h2⟩ | ⟨h1, h2⟩ <;> rw [h1, h2] <;>
      exact not_contains_of_free (by simp) ((Free.of (by decide)).append (hk.append (Free.of (by decide))))
  | comment ls => rfl

theorem text1_nolist {C : Ctx} {base : Str} (D : DocCtx C base) {ds : List (Spec.Block × Nat)}
    (h : ∀ d ∈ ds, BlockOk C d.1) : containsStr t!"<p>notelist" (text1 C ds) = false := by
  refine not_contains_glue (by decide) (by simp) ?_
  intro p hp
  obtain ⟨d, hd, rfl⟩ := List.mem_map.1 hp
  exact stage1_nolist D (h _ (mem_numbered hd).1) _

/-! ## Sources -/

theorem chunk_lines : ∀ {ls : List Str}, ls ≠ [] → (∀ l ∈ ls, Spec.RawLine l) → Chunk (Spec.join t!"\n" ls)
  | [], h, _ => absurd rfl h
  | [l], _, h => by
    obtain ⟨h1, h2, h3⟩ := h l (by simp)
    refine ⟨?_, ?_, ?_, ?_⟩
    · rintro rfl; exact h3 (by intro c hc; simp at hc)
    · intro e; exact h1 (List.mem_of_mem_head? (by rw [Spec.join] at e; exact e))
    · intro e; exact h1 (List.mem_of_getLast? (by rw [Spec.join] at e; exact e))
    · rintro ⟨a, b, e⟩; exact h1 (by rw [Spec.join] at e; rw [← e]; simp)
  | l :: m :: ls, _, h => by
    obtain ⟨h1, h2, h3⟩ := h l (by simp)
    have ih := chunk_lines (ls := m :: ls) (by simp) (fun x hx => h x (List.mem_cons_of_mem _ hx))
    have hl : l ≠ [] := by rintro rfl; exact h3 (by intro c hc; simp at hc)
    rw [join_cons (by simp), List.append_assoc]
    obtain ⟨c, u, rfl⟩ : ∃ c u, l = c :: u := by
      cases l with
      | nil => exact absurd rfl hl
      | cons c u => exact ⟨c, u, rfl⟩
    refine ⟨by simp, ?_, ?_, ?_⟩
    · intro e; simp at e; exact h1 (by simp [e])
    · intro e
      apply ih.last
      rw [List.getLast?_append, List.getLast?_append] at e
      cases hj : (Spec.join ['\n'] (m :: ls)).getLast? with
      | none => rw [List.getLast?_eq_none_iff] at hj; exact absurd hj ih.ne
      | some x => rw [hj] at e; simpa using e
    · rintro ⟨a, b, e⟩
      rw [List.append_assoc] at e
      have key := containsStr_iff.2 ⟨a, b, e.symm⟩
      have : containsStr t!"\n\n" (c :: u ++ ('\n' :: Spec.join ['\n'] (m :: ls))) = false := by
        clear key e
        have hj : containsStr t!"\n\n" ('\n' :: Spec.join ['\n'] (m :: ls)) = false := by
          refine not_contains_cons ?_ ?_
          · intro hp
            rw [List.cons_prefix_cons] at hp
            obtain ⟨x, hx⟩ := hp.2
            exact ih.head (by rw [← hx]; rfl)
          · cases hj : containsStr t!"\n\n" (Spec.join ['\n'] (m :: ls)) with
            | false => rfl
            | true => obtain ⟨x, y, e⟩ := containsStr_iff.1 hj; exact absurd ⟨x, y, by rw [e]; simp⟩ ih.lines
        revert h1
        generalize (c :: u) = l
        induction l with
        | nil => intro _; exact hj
        | cons d l ihl =>
          intro h1
          simp at h1
          refine not_contains_cons ?_ (ihl (by simpa using h1.2))
          intro hp
          rw [List.cons_prefix_cons] at hp
          exact h1.1 hp.1
      rw [show c :: u ++ (['\n'] ++ Spec.join ['\n'] (m :: ls)) = c :: u ++ ('\n' :: Spec.join ['\n'] (m :: ls)) from rfl] at key
      rw [this] at key; cases key

theorem raw_of_line {up : Char → Bool} {l : Str} (h : Spec.Line up l) : Spec.RawLine l := by
  refine ⟨line_nochar h.toWords (by decide), line_nochar h.toWords (by decide), ?_⟩
  intro hb
  obtain ⟨c, u, rfl, hc⟩ := h.start
  rcases hb c (by simp) with e | e
  · exact hc e
  · have := h.toWords.chars c (by simp); rw [e] at this; revert this; decide

theorem raw_prefix {p l : Str} (hp : '\n' ∉ p ∧ '\r' ∉ p ∧ ¬ Spec.BlankLine p) (h : Spec.RawLine l) : Spec.RawLine (p ++ l) := by
  obtain ⟨h1, h2, h3⟩ := h
  refine ⟨by simp [hp.1, h1], by simp [hp.2.1, h2], ?_⟩
  intro hb
  exact hp.2.2 (fun c hc => hb c (by simp [hc]))

theorem join_prefix (p sep l : Str) (ls : List Str) : Spec.join sep ((p ++ l) :: ls) = p ++ Spec.join sep (l :: ls) := by
  cases ls with
  | nil => rfl
  | cons m ls =>
    rw [join_cons (l := p ++ l) (ls := m :: ls) (by simp), join_cons (l := l) (ls := m :: ls) (by simp)]
    simp only [List.append_assoc]

/-- Sources of blocks are lines. -/
theorem source_lines {C : Ctx} {b : Spec.Block} (h : BlockOk C b) :
    ∃ ls, ls ≠ [] ∧ (∀ l ∈ ls, Spec.RawLine l) ∧ b.source = Spec.join t!"\n" ls := by
  have key : ∀ (p : Str) (ls : List Str), '\n' ∉ p ∧ '\r' ∉ p ∧ ¬ Spec.BlankLine p → ls ≠ [] → (∀ l ∈ ls, Spec.RawLine l) →
      ∃ ls', ls' ≠ [] ∧ (∀ l ∈ ls', Spec.RawLine l) ∧ p ++ Spec.join t!"\n" ls = Spec.join t!"\n" ls' := by
    intro p ls hp hne h
    cases ls with
    | nil => exact absurd rfl hne
    | cons l ls =>
      refine ⟨(p ++ l) :: ls, by simp, ?_, (join_prefix p t!"\n" l ls).symm⟩
      intro x hx
      rcases List.mem_cons.1 hx with rfl | hx
      · exact raw_prefix hp (h l (by simp))
      · exact h x (List.mem_cons_of_mem _ hx)
  have key' : ∀ (p : Str) (ls : List Str), '\n' ∉ p ∧ '\r' ∉ p ∧ ¬ Spec.BlankLine p → Spec.RawLines ls →
      ∃ ls', ls' ≠ [] ∧ (∀ l ∈ ls', Spec.RawLine l) ∧ p ++ Spec.join t!"\n" ls = Spec.join t!"\n" ls' := by
    intro p ls hp h
    cases ls with
    | nil => exact absurd h id
    | cons l ls =>
      refine ⟨(p ++ l) :: ls, by simp, ?_, (join_prefix p t!"\n" l ls).symm⟩
      intro x hx
      rcases List.mem_cons.1 hx with rfl | hx
      · refine ⟨by simp [hp.1, h.1.1], by simp [hp.2.1, h.1.2], ?_⟩
        intro hb
        exact hp.2.2 (fun c hc => hb c (by simp [hc]))
      · exact h.2 x hx
  have hq : ∀ ls, Spec.Paragraph C.U.isLu ls → ∀ l ∈ ls, Spec.RawLine l := fun ls hp l hl => raw_of_line (hp.lines l hl)
  cases b with
  | para ls => exact ⟨ls, h.1.ne, hq ls h.1, rfl⟩
  | tagged tag ls =>
    have hm := (tagged_mem h.2.1).1
    have ht : '\n' ∉ tag ++ t!". " ∧ '\r' ∉ tag ++ t!". " ∧ ¬ Spec.BlankLine (tag ++ t!". ") := by
      clear h; revert tag; decide
    simpa [Spec.Block.source] using key (tag ++ t!". ") ls ht h.1.ne (hq ls h.1)
  | quote ls => simpa [Spec.Block.source] using key t!"bq. " ls (by decide) h.1.ne (hq ls h.1)
  | verbatim tag ls =>
    have hm := (verbatim_mem h.2.1).1
    have ht : '\n' ∉ tag ++ t!". " ∧ '\r' ∉ tag ++ t!". " ∧ ¬ Spec.BlankLine (tag ++ t!". ") := by
      simp only [List.mem_cons, List.not_mem_nil, or_false] at hm
      rcases hm with rfl | rfl | rfl <;> decide
    simpa [Spec.Block.source] using key' (tag ++ t!". ") ls ht h.1
  | comment ls => simpa [Spec.Block.source] using key' t!"###. " ls (by decide) h.1

theorem source_chunk {C : Ctx} {b : Spec.Block} (h : BlockOk C b) : Chunk b.source := by
  obtain ⟨ls, h1, h2, h3⟩ := source_lines h
  rw [h3]; exact chunk_lines h1 h2

/-! ## The body of the conversion -/

theorem runs_block {C : Ctx} {base : Str} (D : DocCtx C base) {ds : List (Spec.Block × Nat)} (hne : ds ≠ [])
    (h : ∀ d ∈ ds, BlockOk C d.1) : Runs C (block C (Spec.source ds)) (text1 C ds) {} (afterAll C {} ds) := by
  have hsp : MULTI_ENDLINE_RE.split C.U 1 (Spec.source ds) = interleave (ds.map (fun d => (d.1.source, d.2))) := by
    refine split_glue C.U (by simpa using hne) ?_
    intro p hp
    obtain ⟨d, hd, rfl⟩ := List.mem_map.1 hp
    exact source_chunk (h d hd)
  obtain ⟨s', h1, h2, h3⟩ := loop_doc D hne h {} {} rfl
  unfold block
  rw [hsp]
  refine h1.bind ?_
  simp only [h2, List.isEmpty_nil, if_true]
  have e : concat s'.out.reverse = text1 C ds := by
    rw [h3, text1]
    simp only [shown, List.isEmpty_iff, List.map_eq_nil_iff, concat, List.reverse_nil, List.flatten_nil, List.nil_append]
    split
    · rename_i e; rw [e]; rfl
    · rfl
  rw [e]
  exact Runs.pure _ _

theorem after_aux {C : Ctx} : ∀ (ds : List (Spec.Block × Nat)) (σ : PState), (afterAll C σ ds).aux = σ.aux
  | [], _ => rfl
  | (b, k) :: ds, σ => by
    rw [show afterAll C σ ((b, k) :: ds) = afterAll C (after C σ b) ds from rfl, after_aux ds]
    cases b <;> rfl

theorem runs_body {C : Ctx} {base : Str} (D : DocCtx C base) (hbt : C.cfg.blockTags = true) {ds : List (Spec.Block × Nat)}
    (hne : ds ≠ []) (h : ∀ d ∈ ds, BlockOk C d.1) (hs : ∀ d ∈ ds, containsStr (uidOf base) d.1.source = false) :
    ∃ σ, Runs C (parseBody C (Spec.source ds)) (text2 C ds) {} σ := by
  refine ⟨{ afterAll C {} ds with aux := splitNotes (afterAll C {} ds).aux }, ?_⟩
  unfold parseBody
  rw [if_pos hbt]
  refine Runs.bind (a := text1 C ds) (σ' := { afterAll C {} ds with aux := splitNotes (afterAll C {} ds).aux })
    ((runs_block D hne h).bind ?_) ?_
  · unfold placeNoteLists
    rw [replaceP_none (Re.starts_search NOTELIST_starts (text1_nolist D h) [])]
    intro w hw e
    exact ⟨_, rfl, by rw [← e]; rfl, hw⟩
  · refine runs_rest ?_ (by rw [D.uid]; exact text2_clean D h hs)
    have := shelf_after ds {} (StoreOk.init C.cfg.uid)
    rw [show ({ afterAll C {} ds with aux := splitNotes (afterAll C {} ds).aux } : PState).shelf = (afterAll C {} ds).shelf from rfl,
      this]
    exact retrieve_doc D h hs

/-! ## The end of the conversion -/

theorem tidyBreaks_skip {br t : Str} : ∀ {w : Str}, (∀ u y v, w = u ++ y :: v →
    ¬ t!"<br>" <+: y :: v ++ t ∧ ¬ t!"<br />" <+: y :: v ++ t) → Spec.tidyBreaks br (w ++ t) = w ++ Spec.tidyBreaks br t
  | [], _ => rfl
  | c :: w, h => by
    have h1 := h [] c w rfl
    have ih := tidyBreaks_skip (br := br) (w := w) (t := t) (fun u y v e => h (c :: u) y v (by simp [e]))
    rw [List.cons_append, Spec.tidyBreaks.eq_def]
    split
    · rename_i r e; exact absurd ⟨r, by simpa using e.symm⟩ h1.1
    · rename_i r e; exact absurd ⟨r, by simpa using e.symm⟩ h1.2
    · rename_i e; simp at e; rw [← e.1, ← e.2, ih]; rfl
    · rename_i e; simp at e

theorem tidy_local (br : Str) : Local (Spec.tidyBreaks br) where
  nil := rfl
  nl t := tidyBreaks_free (w := ['\n']) (Free.of rfl)

theorem tidy_join {up : Char → Bool} {br z : Str} (hb : br = t!"<br>" ∨ br = t!"<br />") : ∀ {ls : List Str},
    (∀ l ∈ ls, Spec.Line up l) → Spec.tidyBreaks br (Spec.join br ls ++ z) = Spec.join (br ++ t!"\n") ls ++ Spec.tidyBreaks br z
  | [], _ => rfl
  | [l], h => tidyBreaks_free (Free.of_head rfl (line_nolt (h l (by simp)).toWords))
  | l :: m :: ls, h => by
    have ih := tidy_join (z := z) hb (ls := m :: ls) (fun x hx => h x (List.mem_cons_of_mem _ hx))
    rw [join_cons (sep := br) (l := l) (ls := m :: ls) (by simp),
      join_cons (sep := br ++ t!"\n") (l := l) (ls := m :: ls) (by simp), List.append_assoc, List.append_assoc,
      tidyBreaks_free (Free.of_head rfl (line_nolt (h l (by simp)).toWords)), tidyBreaks_br hb (join_line_head (h m (by simp))), ih]
    simp

theorem escape_eq (q : Bool) (t : Str) : Spec.escape q t = encodeHtml t q false := by
  unfold Spec.escape encodeHtml
  congr 1
  funext c
  unfold encChar
  simp only [Bool.false_and, Bool.false_eq_true, if_false, beq_iff_eq, Bool.and_eq_true]

theorem enc_nolt {q : Bool} {t : Str} : '<' ∉ encodeHtml t q false := by
  intro h
  obtain ⟨c, -, hc⟩ := List.mem_flatMap.1 h
  rcases encChar_special (q := q) (c := c) with e | ⟨e', e, he, -⟩
  · rw [e] at hc
    simp at hc; subst hc
    exact absurd e (by unfold encChar; simp)
  · unfold encChar at hc
    revert hc
    simp only [Bool.false_and, Bool.false_eq_true, if_false]
    (repeat' split) <;> first | decide | skip
    rename_i h1 _ _ _
    intro hc
    simp at hc
    subst hc
    simp at h1

theorem html_turns {C : Ctx} {b : Spec.Block} (h : BlockOk C b) :
    Turns (Spec.tidyBreaks C.cfg.brTag) (stage2 C b) (b.html C.cfg.brTag) := by
  have hbr := brTag_cases C.cfg
  have ht : ∀ tag ∈ brTags, Free t!"<br" (openTag tag) ∧ Free t!"<br" (closeTag tag) := by
    intro tag ht
    exact ⟨(brFree_tags tag ht).1.1, (brFree_tags tag ht).2.1⟩
  intro r hr
  cases b with
  | para ls =>
    simp only [stage2, stage1, List.append_assoc]
    rw [tidyBreaks_free (ht t!"p" (by decide)).1, tidy_join hbr h.1.lines, tidyBreaks_free (ht t!"p" (by decide)).2]
    simp [Spec.Block.html, Spec.element, openTag, closeTag]
  | tagged tag ls =>
    have hm := (tagged_mem h.2.1).1
    simp only [stage2, stage1, List.append_assoc]
    rw [tidyBreaks_free (ht tag hm).1, tidy_join hbr h.1.lines, tidyBreaks_free (ht tag hm).2]
    simp [Spec.Block.html, Spec.element, openTag, closeTag]
  | quote ls =>
    simp only [stage2, stage1, List.append_assoc]
    rw [tidyBreaks_free (Free.of (by decide)), tidyBreaks_free (ht t!"p" (by decide)).1, tidy_join hbr h.1.lines,
      tidyBreaks_free (ht t!"p" (by decide)).2, tidyBreaks_free (Free.of (by decide))]
    simp [Spec.Block.html, Spec.element, openTag, closeTag]
  | comment ls => rfl
  | verbatim tag ls =>
    simp only [stage2, Spec.Block.html, verbatimParts, List.append_assoc, escape_eq]
    split
    · simp only
      rw [tidyBreaks_free (Free.of (by decide)), tidyBreaks_free (Free.of_head rfl enc_nolt), tidyBreaks_free (Free.of (by decide))]
      simp [Spec.element]
    · split
      · simp only
        rw [tidyBreaks_free (Free.of (by decide)), tidyBreaks_free (Free.of_head rfl enc_nolt), tidyBreaks_free (Free.of (by decide))]
        simp [Spec.element]
      · rename_i h1 h2
        have hn := h.2.2 (by
          have := (verbatim_mem h.2.1).1
          simpa [h1, h2] using this)
        simp only [List.nil_append]
        refine tidyBreaks_skip ?_
        have key : ∀ k : Str, '\n' ∉ k → k ≠ [] → (∀ l ∈ ls, ¬ k <:+: l) → ∀ u y v, Spec.join ['\n'] ls = u ++ y :: v → ¬ k <+: y :: v ++ r := by
          intro k hk hk' hl u y v e hp
          obtain ⟨x, hx⟩ := prefix_cut hk hr hp
          rw [← hx] at e
          obtain ⟨l, hl', a, b, e'⟩ := infix_join hk' hk e
          exact hl l hl' ⟨a, b, by rw [e']; simp⟩
        intro u y v e
        exact ⟨key _ (by decide) (by simp) (fun l hl => (hn l hl).1) u y v e, key _ (by decide) (by simp) (fun l hl => (hn l hl).2) u y v e⟩

theorem glue_last : ∀ {ps : List (Str × Nat)}, (∀ p ∈ ps, p.1 ≠ [] ∧ p.1.getLast? ≠ some '\n') → (Spec.glue ps).getLast? ≠ some '\n'
  | [], _ => by simp [Spec.glue]
  | [(t, k)], h => (h (t, k) (by simp)).2
  | (t, k) :: q :: ps, h => by
    have ih := glue_last (ps := q :: ps) (fun p hp => h p (List.mem_cons_of_mem _ hp))
    rw [glue_cons (by simp), List.getLast?_append, List.getLast?_append]
    cases hg : (Spec.glue (q :: ps)).getLast? with
    | some x => rw [hg] at ih; simpa using ih
    | none =>
      rw [List.getLast?_eq_none_iff] at hg
      have hq := (h q (by simp)).1
      obtain ⟨q1, q2⟩ := q
      cases ps with
      | nil => exact absurd hg hq
      | cons p ps => rw [glue_cons (by simp)] at hg; simp at hg; exact absurd hg.1 hq

theorem finish_doc {C : Ctx} {ds : List (Spec.Block × Nat)} (hsan : C.cfg.sanitizer = none) (h : ∀ d ∈ ds, BlockOk C d.1) :
    finish C (text2 C ds) = Spec.html C.cfg.brTag ds := by
  rw [finish_eq, hsan]
  simp only
  have h1 : Spec.dropFinalNewlines (Spec.tidyBreaks C.cfg.brTag (text2 C ds)) = Spec.html C.cfg.brTag ds := by
    have := (tidy_local C.cfg.brTag).glue (ps := numbered 0 ds) (f := fun d => stage2 C d.2.1)
      (g := fun d => d.2.1.html C.cfg.brTag) (m := fun d => d.2.2)
      (fun d hd => html_turns (h _ (mem_numbered hd).1))
    rw [text2, this, Spec.html, numbered_map (fun b k => (b.html C.cfg.brTag, k))]
  rw [h1]

/-! ## The beginning of the conversion -/

theorem clear_lines {z : Str} (hz : z = [] ∨ ∃ z', z = '\n' :: z') : ∀ {ls : List Str}, ls ≠ [] → (∀ l ∈ ls, Spec.RawLine l) →
    Spec.clearBlankLines (Spec.join t!"\n" ls ++ z) = Spec.join t!"\n" ls ++ Spec.clearBlankLines z
  | [], h, _ => absurd rfl h
  | [l], _, h => by
    obtain ⟨h1, h2, h3⟩ := h l (by simp)
    rw [Spec.join]
    rcases hz with rfl | ⟨z', rfl⟩
    · rw [List.append_nil, clearBlankLines_noNl h1]; simp [Spec.clearBlankLines, Spec.lines, Spec.clearLines]
    · have := clearBlankLines_cut (l := []) (t := z') (by simp)
      simp only [List.nil_append] at this
      rw [clearBlankLines_cut h1, if_neg h3, this]
      simp
  | l :: m :: ls, _, h => by
    obtain ⟨h1, h2, h3⟩ := h l (by simp)
    have ih := clear_lines hz (ls := m :: ls) (by simp) (fun x hx => h x (List.mem_cons_of_mem _ hx))
    rw [join_cons (by simp), List.append_assoc, List.append_assoc, List.singleton_append, clearBlankLines_cut h1, if_neg h3, ih]
    simp

theorem clear_glue : ∀ {ps : List (Str × Nat)}, (∀ p ∈ ps, ∃ ls, ls ≠ [] ∧ (∀ l ∈ ls, Spec.RawLine l) ∧ p.1 = Spec.join t!"\n" ls) →
    Spec.clearBlankLines (Spec.glue ps) = Spec.glue ps
  | [], _ => rfl
  | [(t, k)], h => by
    obtain ⟨ls, h1, h2, h3⟩ := h (t, k) (by simp)
    have := clear_lines (z := []) (.inl rfl) h1 h2
    simp only at h3
    rw [Spec.glue, h3]
    simpa [Spec.clearBlankLines, Spec.lines, Spec.clearLines] using this
  | (t, k) :: q :: ps, h => by
    obtain ⟨ls, h1, h2, h3⟩ := h (t, k) (by simp)
    simp only at h3
    rw [glue_cons (by simp), h3, clear_lines (z := nls (k + 2) ++ _) (.inr ⟨nls (k + 1) ++ _, rfl⟩) h1 h2, nls, clearBlankLines_nls,
      clear_glue (ps := q :: ps) (fun p hp => h p (List.mem_cons_of_mem _ hp))]

theorem glue_nochar {c : Char} (hc : c ≠ '\n') : ∀ {ps : List (Str × Nat)}, (∀ p ∈ ps, c ∉ p.1) → c ∉ Spec.glue ps
  | [], _ => by simp [Spec.glue]
  | [(t, k)], h => h (t, k) (by simp)
  | (t, k) :: q :: ps, h => by
    rw [glue_cons (by simp)]
    have := glue_nochar hc (ps := q :: ps) (fun p hp => h p (List.mem_cons_of_mem _ hp))
    simp only [List.mem_append, not_or, nls, List.mem_replicate, not_and]
    exact ⟨h (t, k) (by simp), fun _ => hc, this⟩

theorem normalize_source {C : Ctx} {ds : List (Spec.Block × Nat)} (h : ∀ d ∈ ds, BlockOk C d.1) :
    normalizeNewlines C.U (Spec.source ds) = Spec.source ds := by
  have hl : ∀ p ∈ ds.map (fun d => (d.1.source, d.2)), ∃ ls, ls ≠ [] ∧ (∀ l ∈ ls, Spec.RawLine l) ∧ p.1 = Spec.join t!"\n" ls := by
    intro p hp
    obtain ⟨d, hd, rfl⟩ := List.mem_map.1 hp
    exact source_lines (h d hd)
  have hch : ∀ p ∈ ds.map (fun d => (d.1.source, d.2)), Chunk p.1 := by
    intro p hp
    obtain ⟨ls, h1, h2, h3⟩ := hl p hp
    rw [h3]; exact chunk_lines h1 h2
  have hr : '\r' ∉ Spec.source ds := by
    refine glue_nochar (by decide) ?_
    intro p hp
    obtain ⟨ls, h1, h2, h3⟩ := hl p hp
    rw [h3]; exact join_nochar (by decide) (fun l hl => (h2 l hl).2.1)
  rw [normalize_eq, unixNewlines_id hr, Spec.source, clear_glue hl]
  unfold trimP trimStartP
  rw [dropWhile_of_head]
  · apply trimEndP_of_last
    intro c hc
    have := glue_last (fun p hp => ⟨(hch p hp).ne, (hch p hp).last⟩)
    rw [hc] at this
    simpa using this
  · intro c hc
    have := glue_head hch
    rw [hc] at this
    simpa using this

theorem source_piece {k : Str} : ∀ {ps : List (Str × Nat)}, containsStr k (Spec.glue ps) = false →
    ∀ p ∈ ps, containsStr k p.1 = false
  | [], _, p, hp => by simp at hp
  | [(t, n)], h, p, hp => by simp at hp; subst hp; exact h
  | (t, n) :: q :: ps, h, p, hp => by
    rw [glue_cons (by simp)] at h
    rcases List.mem_cons.1 hp with rfl | hp
    · cases hc : containsStr k t with
      | false => rfl
      | true =>
        obtain ⟨a, b, e⟩ := containsStr_iff.1 hc
        rw [containsStr_iff.2 ⟨a, b ++ (nls (n + 2) ++ Spec.glue (q :: ps)), by rw [e]; simp⟩] at h
        cases h
    · exact source_piece (containsStr_append_right (containsStr_append_right h)) p hp

theorem enc_append (a b : Str) : encodeHtml (a ++ b) false false = encodeHtml a false false ++ encodeHtml b false false :=
  List.flatMap_append

theorem enc_id {t : Str} (h : ∀ c ∈ t, c ∉ t!"&<>\"'") : encodeHtml t false false = t := by
  induction t with
  | nil => rfl
  | cons c t ih =>
    rw [encodeHtml, List.flatMap_cons, encChar_plain (h c (by simp))]
    have := ih (fun d hd => h d (List.mem_cons_of_mem _ hd))
    rw [encodeHtml] at this
    rw [this]; rfl

theorem enc_join : ∀ ls : List Str, encodeHtml (Spec.join t!"\n" ls) false false = Spec.join t!"\n" (ls.map (Spec.escape false))
  | [] => rfl
  | [l] => by simp [Spec.join, escape_eq]
  | l :: m :: ls => by
    have ih := enc_join (m :: ls)
    rw [join_cons (l := l) (ls := m :: ls) (by simp), List.map_cons,
      join_cons (l := Spec.escape false l) (ls := (m :: ls).map _) (by simp), enc_append, enc_append, ih, escape_eq]
    rfl

theorem escape_line {up : Char → Bool} {l : Str} (h : Spec.Line up l) : Spec.escape false l = l := by
  rw [escape_eq]
  apply enc_id
  intro c hc hm
  have := h.chars c hc
  simp at hm
  rcases hm with rfl | rfl | rfl | rfl | rfl <;> revert this <;> decide

theorem escape_lines {up : Char → Bool} {ls : List Str} (h : ∀ l ∈ ls, Spec.Line up l) : ls.map (Spec.escape false) = ls := by
  induction ls with
  | nil => rfl
  | cons l ls ih =>
    rw [List.map_cons, escape_line (h l (by simp)), ih (fun x hx => h x (List.mem_cons_of_mem _ hx))]

theorem enc_source {C : Ctx} {b : Spec.Block} (h : BlockOk C b) : encodeHtml b.source false false = b.escaped.source := by
  have hd : encodeHtml t!". " false false = t!". " := by decide
  cases b with
  | para ls =>
    simp only [Spec.Block.source, Spec.Block.escaped]
    rw [enc_join, escape_lines h.1.lines]
  | tagged tag ls =>
    have hm := (tagged_mem h.2.1).1
    simp only [Spec.Block.source, Spec.Block.escaped]
    rw [enc_append, enc_append, enc_join, escape_lines h.1.lines, hd,
      show encodeHtml tag false false = tag by clear h; revert tag; decide]
  | quote ls =>
    simp only [Spec.Block.source, Spec.Block.escaped]
    rw [enc_append, enc_append, enc_join, escape_lines h.1.lines]; rfl
  | verbatim tag ls =>
    have hm := (verbatim_mem h.2.1).1
    simp only [Spec.Block.source, Spec.Block.escaped]
    rw [enc_append, enc_append, enc_join, hd, show encodeHtml tag false false = tag by
      simp only [List.mem_cons, List.not_mem_nil, or_false] at hm
      rcases hm with rfl | rfl | rfl <;> decide]
  | comment ls =>
    simp only [Spec.Block.source, Spec.Block.escaped]
    rw [enc_append, enc_append, enc_join]; rfl

theorem raw_escape {l : Str} (h : Spec.RawLine l) : Spec.RawLine (Spec.escape false l) := by
  rw [escape_eq]
  obtain ⟨h1, h2, h3⟩ := h
  refine ⟨?_, ?_, ?_⟩
  · intro hc
    obtain ⟨c, hc, hx⟩ := List.mem_flatMap.1 hc
    rw [harmless_enc.mem (by simp)] at hx
    exact h1 (hx ▸ hc)
  · intro hc
    obtain ⟨c, hc, hx⟩ := List.mem_flatMap.1 hc
    rw [harmless_enc.mem (by simp)] at hx
    exact h2 (hx ▸ hc)
  · intro hb
    exact h3 ((blankLine_flatMap harmless_enc l).1 hb)

theorem escaped_ok {C : Ctx} {b : Spec.Block} (h : BlockOk C b) : BlockOk C b.escaped := by
  have hraw : ∀ ls : List Str, Spec.RawLines ls → Spec.RawLines (ls.map (Spec.escape false)) := by
    intro ls h
    cases ls with
    | nil => exact h
    | cons l ls =>
      refine ⟨?_, ?_⟩
      · rw [escape_eq]
        constructor <;>
        · intro hc
          obtain ⟨c, hc, hx⟩ := List.mem_flatMap.1 hc
          rw [harmless_enc.mem (by simp)] at hx
          first | exact h.1.1 (hx ▸ hc) | exact h.1.2 (hx ▸ hc)
      · intro m hm
        obtain ⟨x, hx, rfl⟩ := List.mem_map.1 hm
        exact raw_escape (h.2 x hx)
  cases b with
  | para ls => exact h
  | tagged tag ls => exact h
  | quote ls => exact h
  | verbatim tag ls =>
    refine ⟨hraw ls h.1, h.2.1, ?_⟩
    intro _ l hl
    obtain ⟨x, hx, rfl⟩ := List.mem_map.1 hl
    rw [escape_eq]
    constructor <;> (rintro ⟨a, b, e⟩; exact enc_nolt (q := false) (t := x) (by rw [← e]; simp))
  | comment ls => exact ⟨hraw ls h.1, h.2⟩

/-- The document the block parser sees. -/
def seen (C : Ctx) (ds : List (Spec.Block × Nat)) : List (Spec.Block × Nat) :=
  if C.cfg.restricted then ds.map (fun d => (d.1.escaped, d.2)) else ds

theorem enc_glue : ∀ ps : List (Str × Nat), encodeHtml (Spec.glue ps) false false =
    Spec.glue (ps.map (fun p => (encodeHtml p.1 false false, p.2)))
  | [] => rfl
  | [(t, k)] => rfl
  | (t, k) :: q :: ps => by
    have ih := enc_glue (q :: ps)
    rw [glue_cons (ps := q :: ps) (by simp), List.map_cons, glue_cons (ps := (q :: ps).map _) (by simp), enc_append, enc_append, ih,
      show encodeHtml (nls (k + 2)) false false = nls (k + 2) from flatMap_nls _]

theorem prepare_source {C : Ctx} {base : Str} (D : DocCtx C base) {ds : List (Spec.Block × Nat)} (h : ∀ d ∈ ds, BlockOk C d.1)
    (hs : containsStr (uidOf base) (Spec.source ds) = false) :
    prepare C (Spec.source ds) = Spec.source (seen C ds) ∧ (∀ d ∈ seen C ds, BlockOk C d.1) ∧
      containsStr (uidOf base) (Spec.source (seen C ds)) = false := by
  obtain ⟨c1, c2, c3, c4, c5, c6, c7, c8⟩ := uid_chars D.plain
  have key : (if C.cfg.restricted then encodeHtml (Spec.source ds) false false else Spec.source ds) = Spec.source (seen C ds) := by
    unfold seen
    split
    · rw [Spec.source, enc_glue, Spec.source, List.map_map, List.map_map]
      congr 1
      apply List.map_congr_left
      intro d hd
      simp only [Function.comp_apply, enc_source (h d hd)]
    · rfl
  have hok : ∀ d ∈ seen C ds, BlockOk C d.1 := by
    unfold seen
    split
    · intro d hd
      obtain ⟨x, hx, rfl⟩ := List.mem_map.1 hd
      exact escaped_ok (h x hx)
    · exact h
  have hc : containsStr (uidOf base) (Spec.source (seen C ds)) = false := by
    rw [← key]
    split
    · exact containsStr_enc c1 c2 c7 hs
    · exact hs
  refine ⟨?_, hok, hc⟩
  unfold prepare
  simp only [key]
  rw [normalize_source hok, D.uid, replaceStr_none hc]

theorem source_nonblank {C : Ctx} {ds : List (Spec.Block × Nat)} (hne : ds ≠ []) (h : ∀ d ∈ ds, BlockOk C d.1) :
    ¬ Spec.Blank (Spec.source ds) := by
  cases ds with
  | nil => exact absurd rfl hne
  | cons d ds =>
    obtain ⟨b, k⟩ := d
    have hb : ∃ c u, b.source = c :: u ∧ isWs c = false := by
      have hok := h (b, k) (by simp)
      cases b with
      | para ls => obtain ⟨c, u, e, hc, -⟩ := para_head hok.1; exact ⟨c, u, e, hc⟩
      | tagged tag ls =>
        have hm := (tagged_mem hok.2.1).1
        simp only [brTags, List.mem_cons, List.not_mem_nil, or_false] at hm
        rcases hm with rfl | rfl | rfl | rfl | rfl | rfl | rfl <;> exact ⟨_, _, rfl, by decide⟩
      | quote ls => exact ⟨_, _, rfl, by decide⟩
      | verbatim tag ls =>
        have hm := (verbatim_mem hok.2.1).1
        simp only [List.mem_cons, List.not_mem_nil, or_false] at hm
        rcases hm with rfl | rfl | rfl <;> exact ⟨_, _, rfl, by decide⟩
      | comment ls => exact ⟨_, _, rfl, by decide⟩
    obtain ⟨c, u, e, hc⟩ := hb
    intro hbl
    have hm : c ∈ Spec.source ((b, k) :: ds) := by
      rw [Spec.source, List.map_cons]
      cases hd : ds.map (fun d => (d.1.source, d.2)) with
      | nil => rw [Spec.glue, e]; simp
      | cons q ps => rw [glue_cons (by simp), e]; simp
    have := (isWs_iff c).2 (hbl c hm)
    rw [hc] at this; cases this

/-- The whole conversion of a document. -/
theorem parse_doc {E : Env} {fuel : Nat} {cfg : Cfg} {base : Str} (D : DocCtx ⟨E, cfg, fuel⟩ base)
    (hbt : cfg.blockTags = true) (hsan : cfg.sanitizer = none) {ds : List (Spec.Block × Nat)} (hne : ds ≠ [])
    (h : ∀ d ∈ ds, BlockOk ⟨E, cfg, fuel⟩ d.1) (hs : containsStr (uidOf base) (Spec.source ds) = false) :
    parseFresh E fuel cfg (Spec.source ds) = .ok (Spec.html cfg.brTag (seen ⟨E, cfg, fuel⟩ ds)) := by
  obtain ⟨h1, h2, h3⟩ := prepare_source D h hs
  have hne' : seen ⟨E, cfg, fuel⟩ ds ≠ [] := by
    unfold seen; split <;> simpa using hne
  have hp := source_piece h3
  obtain ⟨σ, hr⟩ := runs_body D hbt hne' h2 (by
    intro d hd
    exact hp (d.1.source, d.2) (List.mem_map.2 ⟨d, hd, rfl⟩))
  obtain ⟨w', e, -, -⟩ := hr { cache := [] } (Cache.valid_nil _) rfl
  unfold parseFresh
  rw [parse_nonblank (source_nonblank hne h)]
  simp only [h1]
  rw [e]
  simp only
  rw [finish_doc hsan h2]

end Rustextile
