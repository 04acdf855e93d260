import Verif.ExtLoop

/-!
# Extended blocks
-/

namespace Rustextile

open Prog

/-! ## What is recognised -/

theorem ext_captures (C : Ctx) (hU : UniOk C.U) {tag t : Str} {a : Spec.Atts} (ht : tag ∈ plainTags C.cfg.lite) (h : a.Ok)
    (hb : a.Before t) : ∃ m, (blockTagRe C).captures C.U (tag ++ (a.source ++ (t!".. " ++ t))) = some m ∧
      m.grp 1 = tag ∧ m.grp 2 = a.source ∧ m.grp 3 = ['.'] ∧ m.get? 4 = none ∧ m.grp 5 = t := by
  have := tag_captures_atts C hU (tag := tag) (att := a.source) (t := t) (ext := true) (cite := none)
    (Takes.of_lang (by cases C.cfg.lite <;> decide +kernel) (plainTags_lang _ _ tag ht)) ?_
    (atts_not h (by decide +kernel)) (by simp) ?_
  · exact this
  · intro s
    refine atts_takes h ?_ (by simp)
    have : ∀ b, ∀ tag ∈ plainTags b, '<' ∉ tag := by decide
    intro e
    obtain ⟨u, hu⟩ := List.head?_eq_some_iff.1 e
    exact this _ tag ht (by rw [← List.mem_reverse, hu]; simp)
  · intro x o b e ho
    rcases atts_open h e ho with h1 | ⟨rfl, h2, h3⟩
    · exact .inl h1
    · refine .inr ⟨?_, by simp⟩
      rcases hb with h0 | h0 | h0
      · exact absurd h0 h2
      · exact absurd h0 h3
      · exact h0

theorem plain_first : ∀ b, ∀ tag ∈ plainTags b, encodeHtml tag false false = tag ∧ ∃ c u, tag = c :: u ∧ isWs c = false := by
  intro b tag h
  unfold plainTags at h
  split at h
  · simp only [List.mem_cons, List.not_mem_nil, or_false] at h
    rcases h with rfl | rfl | rfl <;> exact ⟨by decide, _, _, rfl, by decide⟩
  · simp only [List.mem_cons, List.not_mem_nil, or_false] at h
    rcases h with rfl | rfl | rfl | rfl | rfl | rfl | rfl | rfl | rfl | rfl | rfl | rfl <;> exact ⟨by decide, _, _, rfl, by decide⟩

theorem trim_first {b : Str} (h : ∃ c u, b = c :: u ∧ isWs c = false) : trim b ≠ [] := by
  obtain ⟨c, u, rfl, hc⟩ := h
  exact trim_ne hc

theorem names_plain (lite : Bool) : Spec.blockNames lite = plainTags lite := by cases lite <;> rfl

/-- A text with a tag ends an extended block. -/
theorem heading_seen {C : Ctx} (hU : UniOk C.U) {t : Str} (h : Spec.Headed C.cfg.lite C.cfg.restricted t) :
    Heading C (if C.cfg.restricted then encodeHtml t false false else t) := by
  obtain ⟨tag, a, r, h1, h2, h3, h4, rfl⟩ := h
  rw [names_plain] at h1
  obtain ⟨e1, c, u, rfl, hc⟩ := plain_first _ _ h1
  by_cases hr : C.cfg.restricted = true
  · rw [if_pos hr]
    rw [hr] at h3
    rw [enc_append, enc_append, enc_append, enc_atts h2 h3, e1]
    obtain ⟨m, hm, -⟩ := styled_captures C hU h1 h2 (before_enc h4)
    exact ⟨⟨m, hm⟩, trim_ne hc⟩
  · rw [if_neg hr]
    obtain ⟨m, hm, -⟩ := styled_captures C hU h1 h2 h4
    exact ⟨⟨m, hm⟩, trim_ne hc⟩

theorem heading_ext {C : Ctx} (hU : UniOk C.U) {tag t : Str} {a : Spec.Atts} (ht : tag ∈ plainTags C.cfg.lite) (h : a.Ok)
    (hb : a.Before t) : Heading C (tag ++ (a.source ++ (t!".. " ++ t))) := by
  obtain ⟨e1, c, u, rfl, hc⟩ := plain_first _ _ ht
  obtain ⟨m, hm, -⟩ := ext_captures C hU ht h hb
  exact ⟨⟨m, hm⟩, trim_ne hc⟩

/-! ## Texts with newlines between them -/

theorem tailOf_cons (p : Nat × Str) (ps : List (Nat × Str)) : tailOf (p :: ps) = nls (p.1 + 2) ++ (p.2 ++ tailOf ps) := by
  simp [tailOf]

theorem nls_succ (n : Nat) : nls (n + 1) = '\n' :: nls n := rfl

theorem contains_nls {n x : Str} (hn : '\n' ∉ n) (hne : n ≠ []) (h : containsStr n x = false) (k : Nat) : containsStr n (nls k ++ x) = false := by
  induction k with
  | zero => exact h
  | succ k ih => exact containsStr_sep (a := []) hn hne (by cases n with | nil => exact absurd rfl hne | cons c n => rfl) ih

theorem contains_tail {n : Str} (hn : '\n' ∉ n) (hne : n ≠ []) {qs : List (Nat × Str)} (hq : ∀ q ∈ qs, containsStr n q.2 = false) :
    ∀ {x : Str}, containsStr n x = false → containsStr n (x ++ tailOf qs) = false := by
  induction qs with
  | nil => intro x h; simpa [tailOf] using h
  | cons q qs ih =>
    intro x h
    rw [tailOf_cons, nls_succ]
    exact containsStr_sep hn hne h (contains_nls hn hne (ih (fun p hp => hq p (by simp [hp])) (hq q (by simp))) _)

theorem tail_head {qs : List (Nat × Str)} {z : Str} (hz : ∀ c, z.head? = some c → c = '\n') :
    ∀ c, (tailOf qs ++ z).head? = some c → c = '\n' := by
  cases qs with
  | nil => exact hz
  | cons q qs => rw [tailOf_cons, nls_succ]; simp; 

theorem nolt_tail {qs : List (Nat × Str)} (h : ∀ q ∈ qs, '<' ∉ q.2) : '<' ∉ tailOf qs := by
  intro hm
  obtain ⟨q, hq, hc⟩ := List.mem_flatMap.1 hm
  rcases List.mem_append.1 hc with hc | hc
  · have := List.eq_of_mem_replicate hc; revert this; decide
  · exact h q hq hc

theorem nls_nocolon (n : Nat) : ':' ∉ nls n := by
  intro hm; have := List.eq_of_mem_replicate hm; revert this; decide

/-! ## Code and verbatim texts -/

theorem raw_free {C : Ctx} {base : Str} (D : DocCtx C base) {tag : Str} {a : Spec.Atts} (h : a.Ok) (hc : containsStr C.cfg.uid a.source = false)
    {n : Str} (hn : n.head? = some '<') (h1 : free n t!"<pre" = true ∧ free n t!"<code" = true) : Free n (rawOpen C.cfg.restricted tag a) := by
  have hT := atts_tagText D.plain h (by rw [← D.uid]; exact hc) C.cfg.restricted
  obtain ⟨hT1, hT2⟩ := raw_tagText D.plain h (by rw [← D.uid]; exact hc) C.cfg.restricted
  unfold rawOpen
  split
  · exact (free_open (Free.of h1.1) hn hT1.nolt).append (free_open (Free.of h1.2) hn hT2.nolt)
  · split
    · exact free_open (Free.of h1.1) hn hT.nolt
    · exact Free.nil

theorem close_free {tag n : Str} (hn : free n t!"</code></pre>" = true ∧ free n t!"</pre>" = true) : Free n (rawClose tag) := by
  unfold rawClose
  split
  · exact Free.of hn.1
  · split
    · exact Free.of hn.2
    · exact Free.nil

theorem br_none {C : Ctx} {o : Str} (h : ∀ {n : Str}, n.head? = some '<' → free n t!"<pre" = true ∧ free n t!"<code" = true → Free n o) :
    BR_TAG_RE.replaceTempl C.U C.cfg.brTag (doPBr C o) = o := by
  rw [doPBr_noclose (not_contains_of_free (by simp) (h rfl (by decide))) (not_contains_of_free (by simp) (h rfl (by decide)))]
  exact Broken.replace (Broken.single ⟨h rfl (by decide), h rfl (by decide), h rfl (by decide), h rfl (by decide)⟩)

theorem open_raw {C : Ctx} {base : Str} (D : DocCtx C base) {tag t : Str} {a : Spec.Atts} (h : a.Ok)
    (hc : containsStr C.cfg.uid a.source = false) (hbe : a.Before t)
    (ht : tag ∈ [t!"bc", t!"pre", t!"notextile"]) (ht' : tag ∈ plainTags C.cfg.lite) (σ : PState) :
    OpenTo C (tag ++ (a.source ++ (t!".. " ++ t))) σ (σ.shelved C.cfg.uid (rawValue tag t))
      (rawOpen C.cfg.restricted tag a ++ shelfKey C.cfg.uid (σ.refIndex + 1)) tag a.source (rawClose tag) := by
  obtain ⟨m, hm, g1, g2, g3, g4, g5⟩ := ext_captures C D.uni ht' h hbe
  have hk := key_nolt D (σ.refIndex + 1)
  refine open_of_body (o := rawOpen C.cfg.restricted tag a ++ shelfKey C.cfg.uid (σ.refIndex + 1)) ?_ ?_ ?_
  · simp only [List.mem_cons, List.not_mem_nil, or_false] at ht
    rcases ht with rfl | rfl | rfl <;> exact trim_ne (by decide)
  · exact br_none (fun hn h1 => (raw_free D h hc hn h1).append (Free.of_head hn hk))
  · intro s hs
    rw [blockBody_tagged hm, g1, g2, g3, g4, g5]
    refine ⟨{ s with tag := tag, atts := a.source, ext := ['.'], cite := none, eat := false, lastClosing := rawClose tag },
      (runs_raw D.uni h ht (fun σ n => (leaves_key D.uni (by have := D.fuel; omega) D.plain D.uid n).runs σ)).bind ?_, ?_⟩
    · rw [hs]
      simp only [List.isEmpty_nil, if_true, List.append_nil, List.isEmpty_cons, Bool.false_eq_true, if_false]
      exact Runs.pure _ _
    · exact ⟨by simp, rfl, rfl, rfl, rfl, rfl, rfl, rfl, rfl⟩

theorem cont_raw {C : Ctx} {base : Str} (D : DocCtx C base) {tag t : Str} {a : Spec.Atts} (h : a.Ok)
    (hs : Spec.NoBlockStart C.U.isNd C.cfg.lite t) (hb : trim t ≠ []) (ht : tag ∈ [t!"bc", t!"pre", t!"notextile"]) (σ : PState) :
    ContTo C t σ (σ.shelved C.cfg.uid (rawValue tag t)) (shelfKey C.cfg.uid (σ.refIndex + 1)) tag a.source (rawClose tag) := by
  have hk := key_nolt D (σ.refIndex + 1)
  refine cont_of_body (o := shelfKey C.cfg.uid (σ.refIndex + 1)) hb (br_none (fun hn _ => Free.of_head hn hk)) ?_
  intro s h1 h2 h3 h4
  rw [blockBody_anonymous (tag_none_of hs) (.inl h1), h2, h3, h4]
  refine (runs_raw D.uni h ht (fun σ n => (leaves_key D.uni (by have := D.fuel; omega) D.plain D.uid n).runs σ)).bind ?_
  have : tag ≠ t!"p" := by rintro rfl; revert ht; decide
  simp only [this, decide_false, Bool.false_and, Bool.or_false, List.nil_append, List.append_nil, ite_self]
  exact Runs.pure _ _

/-- Texts that are set aside one after the other. -/
inductive Shelves (uid : Str) (τ : PState) (f : Str → Str) : List (Nat × Str) → List (Nat × Str) → Prop
  | nil : Shelves uid τ f [] []
  | cons {n i : Nat} {t : Str} {qs ts : List (Nat × Str)} : alLookup (shelfKey uid i) τ.shelf = some (f t) → Shelves uid τ f qs ts →
    Shelves uid τ f ((n, shelfKey uid i) :: qs) ((n, t) :: ts)

theorem conts_raw {C : Ctx} {base : Str} (D : DocCtx C base) {tag : Str} {a : Spec.Atts} (h : a.Ok)
    (ht : tag ∈ [t!"bc", t!"pre", t!"notextile"]) : ∀ (ts : List (Nat × Str)) (_ : ∀ p ∈ ts, Spec.NoBlockStart C.U.isNd C.cfg.lite p.2 ∧ trim p.2 ≠ [])
    (σ : PState), ∃ σ' qs, Conts C tag a.source (rawClose tag) ts σ σ' qs ∧ Grow C.cfg.uid σ σ' ∧ σ'.aux = σ.aux ∧
      σ'.refIndex = σ.refIndex + ts.length ∧ (∀ τ, Agrees C.cfg.uid σ' τ → Shelves C.cfg.uid τ (rawValue tag) qs ts) ∧ ∀ q ∈ qs, '<' ∉ q.2
  | [], _, σ => ⟨σ, [], .nil, Grow.refl _ _, rfl, rfl, fun _ _ => .nil, by simp⟩
  | (n, t) :: ts, hts, σ => by
    obtain ⟨σ', qs, h1, h2, h3, h4, h5, h6⟩ := conts_raw D h ht ts (fun p hp => hts p (by simp [hp])) (σ.shelved C.cfg.uid (rawValue tag t))
    have hg := Grow.shelved C.cfg.uid (rawValue tag t) σ
    refine ⟨σ', (n, shelfKey C.cfg.uid (σ.refIndex + 1)) :: qs, .cons (cont_raw D h (hts (n, t) (by simp)).1 (hts (n, t) (by simp)).2 ht σ) h1,
      hg.trans h2, by rw [h3, shelved_aux], by rw [h4]; simp [PState.shelved]; omega, ?_, ?_⟩
    · intro τ hτ
      refine .cons ?_ (h5 τ hτ)
      have := hτ.before0 h2.toGrows
      rw [(this (σ.refIndex + 1) (by simp [PState.shelved])).2]
      exact shelved_lookup _ _ _
    · intro q hq
      rcases List.mem_cons.1 hq with rfl | hq
      · exact key_nolt D _
      · exact h6 q hq

theorem nls_snoc (n : Nat) (x : Str) : nls n ++ '\n' :: x = '\n' :: (nls n ++ x) := by
  induction n with
  | zero => rfl
  | succ n ih => rw [nls_succ, List.cons_append, ih, List.cons_append]

/-- Each of them stands for its text. -/
theorem rep_keys {base : Str} {τ : PState} (hb : Spec.PlainBase base) {f : Str → Str} {qs ts : List (Nat × Str)}
    (h : Shelves (uidOf base) τ f qs ts) : (∀ p ∈ ts, containsStr (uidOf base) (f p.2) = false) → ∀ {r hr : Str}, Rep (uidOf base) τ r hr →
    ∀ {i : Nat} {v : Str} {c : Char}, (c = '>' ∨ c = '\n') → alLookup (shelfKey (uidOf base) i) τ.shelf = some v → containsStr (uidOf base) v = false →
    Rep (uidOf base) τ (c :: (shelfKey (uidOf base) i ++ (tailOf qs ++ '<' :: r))) (c :: (v ++ (tailOf (ts.map (fun p => (p.1, f p.2))) ++ '<' :: hr))) := by
  have hne : uidOf base ≠ [] := by simp [uidOf]
  have hnil : containsStr (uidOf base) [] = false := containsStr_false_of_mem (c := ':') (by simp [uidOf]) (by simp)
  have step : ∀ {c z : Char} {r hr v : Str} {i : Nat}, (c = '>' ∨ c = '\n') → (z = '<' ∨ z = '\n') → Rep (uidOf base) τ r hr →
      alLookup (shelfKey (uidOf base) i) τ.shelf = some v → containsStr (uidOf base) v = false →
      Rep (uidOf base) τ (c :: (shelfKey (uidOf base) i ++ z :: r)) (c :: (v ++ z :: hr)) := by
    intro c z r hr v i hc hz h1 h2 h3
    have sc : Sep c := by rcases hc with rfl | rfl <;> decide
    have sz : Sep z := by rcases hz with rfl | rfl <;> decide
    have hs : Sealed (uidOf base) (c :: (v ++ [z])) :=
      ⟨⟨_, _, rfl, sc⟩, ⟨c :: v, z, rfl, sz⟩, containsStr_sep (a := []) (sep_uid hb sc) hne hnil (containsStr_sep (sep_uid hb sz) hne h3 hnil)⟩
    have h6 : RepK (uidOf base) τ 0 (fun _ => True) ([c] ++ (v ++ [z])) (c :: (v ++ [z])) := by
      have := RepK.chunk (d := 0) (P := fun _ => True) (σ := τ) hs .nil
      simpa using this
    have h7 : Rep (uidOf base) τ ([c] ++ (shelfKey (uidOf base) i ++ ([z] ++ r))) ((c :: (v ++ [z])) ++ hr) := RepK.key (a := [c]) (z := [z]) (d := 2) (e := 0) (by omega) (fun _ => trivial) h2 (by rcases hc with rfl | rfl <;> decide)
      (by rcases hz with rfl | rfl <;> decide) h6 h1
    simpa using h7
  induction h with
  | nil =>
    intro _ r hr hrr i v c hc hl hv
    simpa [tailOf] using step hc (.inl rfl) hrr hl hv
  | @cons n j t qs ts hl' _ ih =>
    intro hcl r hr hrr i v c hc hl hv
    have := ih (fun p hp => hcl p (by simp [hp])) hrr (c := '\n') (.inr rfl) hl' (hcl (n, t) (by simp))
    have h2 := step (c := c) (z := '\n') (r := nls n ++ '\n' :: _) hc (.inr rfl) (this.text (nls_nocolon n)) hl hv
    simp only [nls_snoc] at h2
    rw [tailOf_cons, List.map_cons, tailOf_cons]
    simpa [nls_succ] using h2

theorem Rep.startTag {base : Str} {σ : PState} {tag att r h : Str} (hb : Spec.PlainBase base) (htag : ':' ∉ tag)
    (ha : TagText (uidOf base) att) (hl : att = [] ∨ ∃ u, att = u ++ ['"']) (h7 : Rep (uidOf base) σ ('>' :: r) ('>' :: h)) :
    Rep (uidOf base) σ (Rustextile.openTagA tag att ++ r) (Rustextile.openTagA tag att ++ h) := by
  have hne : uidOf base ≠ [] := by simp [uidOf]
  have h8 : Rep (uidOf base) σ (('<' :: (tag ++ att)) ++ ('>' :: r)) (('<' :: (tag ++ att)) ++ ('>' :: h)) := by
    rcases hl with rfl | ⟨u, rfl⟩
    · exact h7.text (by simp [htag])
    · refine RepK.chunk ⟨⟨_, _, rfl, by decide⟩, ⟨'<' :: (tag ++ u), '"', by simp, by decide⟩, ?_⟩ h7
      rcases ha.start with e | ⟨w, e⟩
      · simp at e
      · rw [e]
        have h1 : containsStr (uidOf base) w = false := clean_of_infix ha.clean ⟨[' '], [], by simp [e]⟩
        have := containsStr_sep (c := ' ') (a := '<' :: tag) (sep_uid hb (by decide)) hne
          (containsStr_false_of_mem (c := ':') (by simp [uidOf]) (by simp [htag])) h1
        simpa using this
  simpa [Rustextile.openTagA] using h8

theorem rep_shelves {uid : Str} {τ : PState} {f : Str → Str} {qs ts : List (Nat × Str)} (h : Shelves uid τ f qs ts)
    (hv : ∀ p ∈ ts, ':' ∉ f p.2 ∨ Sealed uid (f p.2)) : Rep uid τ (tailOf qs) (tailOf (ts.map (fun p => (p.1, f p.2)))) := by
  induction h with
  | nil => exact .nil
  | @cons n i t qs ts hl _ ih =>
    rw [tailOf_cons, List.map_cons, tailOf_cons]
    exact (Rep.shelf hl (hv (n, t) (by simp)) (ih (fun p hp => hv p (by simp [hp])))).text (nls_nocolon _)

theorem rep_raws {C : Ctx} {base : Str} (D : DocCtx C base) {tag t : Str} {a : Spec.Atts} (h : a.Ok)
    (hc : containsStr C.cfg.uid a.source = false) (ht : tag ∈ [t!"bc", t!"pre", t!"notextile"]) {qs ts : List (Nat × Str)}
    (hct : ∀ x ∈ t :: ts.map (·.2), containsStr C.cfg.uid x = false ∧ (tag = t!"notextile" → ':' ∉ x ∨ Sealed C.cfg.uid x)) {τ : PState} {n : Nat}
    (hl : alLookup (shelfKey C.cfg.uid n) τ.shelf = some (rawValue tag t)) (hs : Shelves C.cfg.uid τ (rawValue tag) qs ts) :
    Rep C.cfg.uid τ ((rawOpen C.cfg.restricted tag a ++ shelfKey C.cfg.uid n) ++ (tailOf qs ++ rawClose tag))
      (rawOpen C.cfg.restricted tag a ++ (rawValue tag t ++ (tailOf (ts.map (fun p => (p.1, rawValue tag p.2))) ++ rawClose tag))) := by
  have hT := atts_tagText D.plain h (by rw [← D.uid]; exact hc) C.cfg.restricted
  obtain ⟨hT1, hT2⟩ := raw_tagText D.plain h (by rw [← D.uid]; exact hc) C.cfg.restricted
  obtain ⟨c1, c2, -, -, -, -, c7, -⟩ := uid_chars D.plain
  have hm : ∀ p ∈ ts, p.2 ∈ t :: ts.map (·.2) := fun p hp => List.mem_cons_of_mem _ (List.mem_map.2 ⟨p, hp, rfl⟩)
  rw [D.uid] at hl hct hs ⊢
  have hr : ∀ w : Str, ':' ∉ w → Rep (uidOf base) τ w w := by
    intro w hw
    have := (Rep.nil (uid := uidOf base) (σ := τ)).text hw
    simpa using this
  have hcl : tag ≠ t!"notextile" → ∀ x ∈ t :: ts.map (·.2), containsStr (uidOf base) (rawValue tag x) = false := by
    intro hne x hx
    unfold rawValue
    rw [if_neg hne]
    exact containsStr_enc c1 c2 c7 (hct x hx).1
  simp only [List.mem_cons, List.not_mem_nil, or_false] at ht
  rcases ht with rfl | rfl | rfl
  · have := rep_keys D.plain hs (fun p hp => hcl (by decide) _ (hm p hp)) (hr t!"/code></pre>" (by decide)) (c := '>') (.inl rfl) hl (hcl (by decide) _ (by simp))
    have := Rep.startTag D.plain (tag := t!"code") (by decide) hT2 (attr_last _ _) this
    have := Rep.openTagA D.plain (tag := t!"pre") (by decide) hT1 this
    simpa [rawOpen, rawClose] using this
  · have := rep_keys D.plain hs (fun p hp => hcl (by decide) _ (hm p hp)) (hr t!"/pre>" (by decide)) (c := '>') (.inl rfl) hl (hcl (by decide) _ (by simp))
    have := Rep.startTag D.plain (tag := t!"pre") (by decide) hT (html_last _ _) this
    simpa [rawOpen, rawClose] using this
  · have h1 := rep_shelves hs (fun p hp => by simpa [rawValue] using (hct _ (hm p hp)).2 rfl)
    have := Rep.shelf hl (by simpa [rawValue] using (hct t (by simp)).2 rfl) h1
    simpa [rawOpen, rawClose] using this

theorem Local.tail {F : Str → Str} (hF : Local F) {α : Type} {f g : α → Str} {m : α → Nat} : ∀ {es : List α} (_ : ∀ e ∈ es, Turns F (f e) (g e))
    {x y : Str} (_ : Turns F x y), Turns F (x ++ tailOf (es.map (fun e => (m e, f e)))) (y ++ tailOf (es.map (fun e => (m e, g e))))
  | [], _, x, y, hx => by simpa [tailOf] using hx
  | e :: es, h, x, y, hx => by
    have ih := Local.tail hF (es := es) (fun p hp => h p (by simp [hp])) (h e (by simp)) (m := m)
    intro z hz
    rw [List.map_cons, List.map_cons, tailOf_cons, tailOf_cons]
    simp only [List.append_assoc]
    rw [hx _ (.inr ⟨_, by rw [nls_succ]; rfl⟩), hF.nls, ← List.append_assoc (f e), ih z hz]
    simp

theorem turns_free {br w : Str} (h : Free t!"<br" w) : Turns (Spec.tidyBreaks br) w w := fun _ _ => tidyBreaks_free h

theorem turns_raws {C : Ctx} {tag : Str} {ls : List Str} {more : List (Nat × List Str)} {a : Spec.Atts}
    (hu : tag = t!"notextile" → ∀ l ∈ ls :: more.map (·.2), Spec.Untouched l)
    (ht : tag ∈ [t!"bc", t!"pre", t!"notextile"]) (r : Bool)
    (h1 : '<' ∉ a.html r) (h2 : '<' ∉ a.noLang.html r) (h3 : '<' ∉ Spec.attr t!"class" a.language) :
    Turns (Spec.tidyBreaks C.cfg.brTag)
      (rawOpen r tag a ++ (rawValue tag (Spec.join t!"\n" ls) ++ (tailOf ((Spec.linesOf more).map (fun p => (p.1, rawValue tag p.2))) ++ rawClose tag)))
      (rawOpen r tag a ++ (rawValue tag (Spec.join t!"\n" ls) ++ (tailOf ((Spec.linesOf more).map (fun p => (p.1, rawValue tag p.2))) ++ rawClose tag))) := by
  have hpre : ∀ {att : Str}, '<' ∉ att → Free t!"<br" (openTagA t!"pre" att) := fun h => free_open (Free.of (by decide)) rfl h
  have hcode : ∀ {att : Str}, '<' ∉ att → Free t!"<br" (openTagA t!"code" att) := fun h => free_open (Free.of (by decide)) rfl h
  have hv : tag ≠ t!"notextile" → ∀ x, Free t!"<br" (rawValue tag x) := by
    intro hne x
    unfold rawValue
    rw [if_neg hne]
    exact Free.of_head rfl enc_nolt
  have hw : tag ≠ t!"notextile" → Free t!"<br" (tailOf ((Spec.linesOf more).map (fun p => (p.1, rawValue tag p.2)))) := by
    intro hne
    refine Free.of_head rfl (nolt_tail ?_)
    intro q hq
    obtain ⟨p, -, rfl⟩ := List.mem_map.1 hq
    simp only [rawValue, if_neg hne]
    exact enc_nolt
  simp only [List.mem_cons, List.not_mem_nil, or_false] at ht
  rcases ht with rfl | rfl | rfl
  · refine turns_free ?_
    have : Free t!"<br" (rawOpen r t!"bc" a) := by simp only [rawOpen, if_true]; exact (hpre h2).append (hcode h3)
    exact this.append ((hv (by decide) _).append ((hw (by decide)).append (close_free (by decide))))
  · refine turns_free ?_
    have : Free t!"<br" (rawOpen r t!"pre" a) := by
      simp only [rawOpen]
      rw [if_neg (by decide), if_pos trivial]
      exact hpre h1
    exact this.append ((hv (by decide) _).append ((hw (by decide)).append (close_free (by decide))))
  · have key : ∀ l ∈ ls :: more.map (·.2), Turns (Spec.tidyBreaks C.cfg.brTag) (Spec.join t!"\n" l) (Spec.join t!"\n" l) := by
      intro l hl
      have := turns_raw (C := C) (tag := t!"notextile") (ls := l) (a := a) (fun _ => hu rfl l hl) (by decide) r h1 h2 h3
      simpa [rawOpen, rawValue, rawClose] using this
    have := Local.tail (tidy_local C.cfg.brTag) (es := more) (f := fun p => Spec.join t!"\n" p.2) (g := fun p => Spec.join t!"\n" p.2) (m := (·.1))
      (fun e he => key _ (List.mem_cons_of_mem _ (List.mem_map.2 ⟨e, he, rfl⟩))) (key ls (by simp))
    simpa [rawOpen, rawValue, rawClose, Spec.linesOf, Function.comp_def] using this

theorem ws_space {c : Char} (h : Spec.isSpace c = false) : isWs c = false := by
  cases hw : isWs c with
  | false => rfl
  | true =>
    rw [← h]
    symm
    revert hw
    unfold isWs Spec.isSpace
    generalize c.toNat = n
    simp only [Spec.whiteSpace]
    simp
    omega

theorem join_subset {s l : Str} {c : Char} (hc : c ∈ l) : ∀ {ls : List Str}, l ∈ ls → c ∈ Spec.join s ls
  | [], h => nomatch h
  | [x], h => by
    rw [List.mem_singleton] at h
    subst h
    simpa [Spec.join] using hc
  | x :: y :: ls, h => by
    rw [join_cons (by simp)]
    rcases List.mem_cons.1 h with rfl | h
    · simp [hc]
    · simp [join_subset hc h]

theorem continues_trim {dig : Char → Bool} {lite : Bool} {ls : List Str} (h : Spec.Continues dig lite ls) : trim (Spec.join t!"\n" ls) ≠ [] := by
  intro e
  obtain ⟨l, hl, c, hc, hs⟩ := h.2.2.1
  have h1 := (trim_isEmpty (s := Spec.join t!"\n" ls)).1 (by rw [e]; rfl) c (join_subset hc hl)
  rw [ws_space hs] at h1
  cases h1

theorem nl_last {u : Str} {qs : List (Nat × Str)} (hu : u ≠ [] ∧ u.getLast? ≠ some '\n') (hq : ∀ q ∈ qs, q.2 ≠ [] ∧ q.2.getLast? ≠ some '\n') :
    u ++ tailOf qs ≠ [] ∧ (u ++ tailOf qs).getLast? ≠ some '\n' := by
  induction qs generalizing u with
  | nil => simpa [tailOf] using hu
  | cons q qs ih =>
    have := ih (hq q (by simp)) (fun p hp => hq p (by simp [hp]))
    rw [tailOf_cons, ← List.append_assoc]
    refine ⟨by simp [nls_succ], ?_⟩
    rw [getLast_append_ne this.1]
    exact this.2

theorem group_raw {C : Ctx} {base : Str} (D : DocCtx C base) {tag : Str} {a : Spec.Atts} {ls : List Str} {more : List (Nat × List Str)}
    (h : (Spec.Node.verbatim tag a ls).Ok C.U.isLu C.U.isNd C.cfg.lite C.cfg.restricted)
    (hm : ∀ p ∈ more, Spec.Continues C.U.isNd C.cfg.lite p.2 ∧ (tag = t!"notextile" → Spec.Untouched p.2))
    (htok : ¬ C.cfg.uid <:+: tag ++ (a.source ++ (t!".. " ++ Spec.join t!"\n" ls))) (htok' : ∀ p ∈ more, ¬ C.cfg.uid <:+: Spec.join t!"\n" p.2)
    {P : PState → Prop} (hP : ∀ σ σ', Keeps σ σ' → σ'.aux = σ.aux → P σ → P σ') :
    Group C P P (tag ++ (a.source ++ (t!".. " ++ Spec.join t!"\n" ls))) (Spec.linesOf more) (1 + more.length)
      (rawOpen C.cfg.restricted tag a ++ (rawValue tag (Spec.join t!"\n" ls) ++
        (tailOf ((Spec.linesOf more).map (fun p => (p.1, rawValue tag p.2))) ++ rawClose tag))) := by
  obtain ⟨h1, h2, h3, h4, h5, h6⟩ := h
  obtain ⟨m1, m2⟩ := verbatim_mem h5
  have hi : ∀ x, x <:+: a.source ∨ x <:+: Spec.join t!"\n" ls → x <:+: tag ++ (a.source ++ (t!".. " ++ Spec.join t!"\n" ls)) := by
    rintro x (⟨u, v, e⟩ | ⟨u, v, e⟩)
    · exact ⟨tag ++ u, v ++ (t!".. " ++ Spec.join t!"\n" ls), by rw [← e]; simp⟩
    · exact ⟨tag ++ (a.source ++ (t!".. " ++ u)), v, by rw [← e]; simp⟩
  have hca : containsStr C.cfg.uid a.source = false := contains_of_not (fun hx => htok (hi _ (.inl hx)))
  have hct : containsStr C.cfg.uid (Spec.join t!"\n" ls) = false := contains_of_not (fun hx => htok (hi _ (.inr hx)))
  have hcb : containsStr (uidOf base) a.source = false := by rw [← D.uid]; exact hca
  obtain ⟨a1, a2⟩ := atts_nonl h2
  obtain ⟨g1, g2, -, c, u, rfl, hcw⟩ := raw_chars tag m1
  have hunt : c :: u = t!"notextile" → ∀ l ∈ ls :: more.map (·.2), Spec.Untouched l := by
    intro e l hl
    rcases List.mem_cons.1 hl with rfl | hl
    · exact h6 e
    · obtain ⟨p, hp, rfl⟩ := List.mem_map.1 hl
      exact (hm p hp).2 e
  have hraw : ∀ l, containsStr C.cfg.uid (Spec.join t!"\n" l) = false → Spec.Untouched l →
      ':' ∉ Spec.join t!"\n" l ∨ Sealed C.cfg.uid (Spec.join t!"\n" l) := by
    intro l hl hu
    by_cases hcol : ':' ∈ Spec.join t!"\n" l
    · exact .inr ⟨(hu.2.2 hcol).1, (hu.2.2 hcol).2, hl⟩
    · exact .inl hcol
  refine ⟨?_, ⟨c, _, rfl, hcw⟩, ?_, ?_⟩
  · intro x hx
    rcases List.mem_cons.1 hx with rfl | hx
    · have := lines_prefix (p := (c :: u) ++ (a.source ++ t!".. ")) ⟨by simp [a1]; simpa using g1, by simp [a2]; simpa using g2, blank_not hcw⟩ h1
      simpa using this
    · simp only [Spec.linesOf, List.map_map, List.mem_map, Function.comp_apply] at hx
      obtain ⟨p, hp, rfl⟩ := hx
      obtain ⟨k1, k2, -, -⟩ := (hm p hp).1
      exact ⟨p.2, k1, k2, rfl⟩
  · intro σ hPσ hd
    have k1 := open_raw D h2 hca h4 m1 m2 σ
    obtain ⟨σ', qs, c1, c2, c3, c4, c5, c6⟩ := conts_raw D h2 m1 (Spec.linesOf more) (by
      intro p hp
      obtain ⟨x, hx, rfl⟩ := List.mem_map.1 hp
      exact ⟨(hm x hx).1.2.2.2, continues_trim (hm x hx).1⟩) (σ.shelved C.cfg.uid (rawValue (c :: u) (Spec.join t!"\n" ls)))
    have hg := (Grow.shelved C.cfg.uid (rawValue (c :: u) (Spec.join t!"\n" ls)) σ).trans c2
    have haux : σ'.aux = σ.aux := by rw [c3, shelved_aux]
    refine ⟨_, σ', _, qs, _, _, _, rawOpen C.cfg.restricted (c :: u) a ++ (rawValue (c :: u) (Spec.join t!"\n" ls) ++
        (tailOf ((Spec.linesOf more).map (fun p => (p.1, rawValue (c :: u) p.2))) ++ rawClose (c :: u))), k1, c1, hg.toGrows,
      hP _ _ (hg.keeps (by rw [haux])) haux hPσ, ?_, ?_, ?_, ?_⟩
    · rw [c4]; simp [PState.shelved, Spec.linesOf]; omega
    · intro τ hτ _
      refine rep_raws D h2 hca m1 ?_ ?_ (c5 τ hτ)
      · intro x hx
        rcases List.mem_cons.1 hx with rfl | hx
        · exact ⟨hct, fun e => hraw _ hct (h6 e)⟩
        · simp only [Spec.linesOf, List.map_map, List.mem_map, Function.comp_apply] at hx
          obtain ⟨p, hp, rfl⟩ := hx
          have := contains_of_not (htok' p hp)
          exact ⟨this, fun e => hraw _ this ((hm p hp).2 e)⟩
      · have := hτ.before0 c2.toGrows
        rw [(this (σ.refIndex + 1) (by simp [PState.shelved])).2]
        exact shelved_lookup _ _ _
    · rw [List.append_assoc]
      exact not_contains_of_free (by simp) ((raw_free D h2 hca rfl (by decide)).append ((Free.of_head rfl (key_nolt D _)).append
        ((Free.of_head rfl (nolt_tail c6)).append (close_free (by decide)))))
    · exact turns_raws hunt m1 _ (atts_tagText D.plain h2 hcb _).nolt (raw_tagText D.plain h2 hcb _).1.nolt (raw_tagText D.plain h2 hcb C.cfg.restricted).2.nolt
  · simp only [List.mem_cons, List.not_mem_nil, or_false] at m1
    rcases m1 with m1 | m1 | m1 <;> rw [m1]
    · have := styled_end (rawOpen C.cfg.restricted t!"bc" a ++ (rawValue t!"bc" (Spec.join t!"\n" ls) ++
        (tailOf ((Spec.linesOf more).map (fun p => (p.1, rawValue t!"bc" p.2))) ++ t!"</code>"))) t!"pre" (by decide)
      simpa [rawClose, closeTag] using this
    · have := styled_end (rawOpen C.cfg.restricted t!"pre" a ++ (rawValue t!"pre" (Spec.join t!"\n" ls) ++
        tailOf ((Spec.linesOf more).map (fun p => (p.1, rawValue t!"pre" p.2))))) t!"pre" (by decide)
      simpa [rawClose, closeTag] using this
    · have k := (h6 m1).2.1
      have := nl_last (u := Spec.join t!"\n" ls) (qs := Spec.linesOf more) ⟨k, raw_last h1 k⟩ (by
        intro q hq
        obtain ⟨p, hp, rfl⟩ := List.mem_map.1 hq
        have := chunk_lines (hm p hp).1.1 (hm p hp).1.2.1
        exact ⟨this.ne, this.last⟩)
      have e : rawOpen C.cfg.restricted t!"notextile" a ++ (rawValue t!"notextile" (Spec.join t!"\n" ls) ++
        (tailOf ((Spec.linesOf more).map (fun p => (p.1, rawValue t!"notextile" p.2))) ++ rawClose t!"notextile")) =
        Spec.join t!"\n" ls ++ tailOf (Spec.linesOf more) := by simp [rawOpen, rawValue, rawClose]
      rw [e]
      exact this

/-! ## Paragraphs, headings and quotations -/

/-- What a text between tags becomes. -/
structure Tagged (C : Ctx) (tag att w : Str) (σ' : PState) (H : Str) : Prop where
  br : ∀ A : Str, BrFree A → noPTag A = true → BR_TAG_RE.replaceTempl C.U C.cfg.brTag (doPBr C (A ++ (openTagA tag att ++ (w ++ closeTag tag)))) =
    A ++ (openTagA tag att ++ (brk C.cfg.brTag w ++ closeTag tag))
  rep : ∀ τ : PState, Agrees C.cfg.uid σ' τ → σ'.refIndex < 2 ^ 32 →
    Rep C.cfg.uid τ (openTagA tag att ++ (brk C.cfg.brTag w ++ closeTag tag)) (openTagA tag att ++ (H ++ closeTag tag))
  nolist : containsStr t!"<p>notelist" (openTagA tag att ++ (brk C.cfg.brTag w ++ closeTag tag)) = false

theorem tagged_of {C : Ctx} {base : Str} (D : DocCtx C base) {src w0 : Str} {k : Nat} {σ σ' : PState} {xs : List (Itm × Str)} {H : Str}
    (hm : Marked C base src w0 k σ σ' xs H) {tag att : Str} (ht : tag ∈ brTags) (hT : TagText (uidOf base) att)
    (hnl : tag = t!"p" → ¬ Spec.notelistWord <+: w0) : Tagged C tag att (w0 ++ mix (uidOf base) [] xs) σ' H where
  br := by
    intro A h1 h2
    have := br_mixed_atts D.uni (a := A) (z := []) (tag := tag) ht hT.nogt (brFree_open (brFree_start tag ht) hT.nolt) hm.over hm.lined
      h1 (.of_lt (by simp)) h2 rfl (by
      simp only [brTags, List.mem_cons, List.not_mem_nil, or_false] at ht
      rcases ht with rfl | rfl | rfl | rfl | rfl | rfl | rfl <;> decide)
    simpa using this
  rep := by
    intro τ h1 h2
    have h3 := (hm.rep τ h1 h2).append ((Rep.nil (uid := C.cfg.uid) (σ := τ)).text (tag_nocolon tag ht).2)
    rw [D.uid] at h3 ⊢
    have := Rep.openTagA D.plain (tag := tag) ((by decide : ∀ tag ∈ brTags, ':' ∉ tag) tag ht) hT h3
    simpa using this
  nolist := by
    have := nolist_styled (C := C) (z := []) hm.toks hm.over hm.start hnl rfl ht hT
    simpa using this

/-- What a text in an extended block becomes. -/
structure ContInfo (C : Ctx) (b : Str) (n : Nat) (σ σ' : PState) (q mid tag atts close : Str) : Prop where
  cont : ContTo C b σ σ' q tag atts close
  grow : Grow C.cfg.uid σ σ'
  aux : σ'.aux = σ.aux
  index : σ'.refIndex ≤ σ.refIndex + 2 * n
  rep : ∀ τ : PState, Agrees C.cfg.uid σ' τ → σ'.refIndex < 2 ^ 32 → Rep C.cfg.uid τ q mid
  nolist : containsStr t!"<p>notelist" q = false

theorem conts_info {C : Ctx} {tag atts close : Str} {α : Type} {src mid : α → Str} {n m : α → Nat} : ∀ (es : List α)
    (_ : ∀ e ∈ es, ∀ σ : PState, σ.spanDepth + 1 ≤ C.cfg.maxSpanDepth → ∃ σ' q, ContInfo C (src e) (n e) σ σ' q (mid e) tag atts close)
    (σ : PState), σ.spanDepth + 1 ≤ C.cfg.maxSpanDepth →
    ∃ σ' qs, Conts C tag atts close (es.map (fun e => (m e, src e))) σ σ' qs ∧ Grow C.cfg.uid σ σ' ∧ σ'.aux = σ.aux ∧
      σ'.refIndex ≤ σ.refIndex + 2 * (es.map n).sum ∧
      (∀ τ : PState, Agrees C.cfg.uid σ' τ → σ'.refIndex < 2 ^ 32 → Rep C.cfg.uid τ (tailOf qs) (tailOf (es.map (fun e => (m e, mid e))))) ∧
      ∀ q ∈ qs, containsStr t!"<p>notelist" q.2 = false
  | [], _, σ, _ => ⟨σ, [], .nil, Grow.refl _ _, rfl, by simp, fun _ _ _ => .nil, by simp⟩
  | e :: es, h, σ, hd => by
    obtain ⟨σ1, q, hi⟩ := h e (by simp) σ hd
    obtain ⟨σ', qs, h1, h2, h3, h4, h5, h6⟩ := conts_info es (fun x hx => h x (by simp [hx])) σ1 (by rw [hi.grow.depth]; exact hd)
    refine ⟨σ', (m e, q) :: qs, .cons hi.cont h1, hi.grow.trans h2, by rw [h3, hi.aux], ?_, ?_, ?_⟩
    · have := hi.index
      simp only [List.map_cons, List.sum_cons]; omega
    · intro τ g1 g2
      rw [List.map_cons, tailOf_cons, tailOf_cons]
      have := h2.toGrows.index
      exact ((hi.rep τ (g1.before0 h2.toGrows) (by omega)).append (h5 τ g1 g2)).text (nls_nocolon _)
    · intro x hx
      rcases List.mem_cons.1 hx with rfl | hx
      · exact hi.nolist
      · exact h6 x hx

theorem cont_styled {C : Ctx} {base : Str} (D : DocCtx C base) {tag : Str} {a : Spec.Atts} (ha : a.Ok) (hca : containsStr C.cfg.uid a.source = false)
    (ht : tag ∈ brTags) {t : Spec.Marked} (h1 : t.Ok C.U.isLu C.cfg.lite) (hs : Spec.NoBlockStart C.U.isNd C.cfg.lite t.source)
    (hnl : tag = t!"p" → ¬ Spec.notelistWord <+: t.source)
    (hR : t.Resolved (Spec.Resolves C.E.urlParse C.E.urlJoin C.cfg.restricted) C.cfg.rel) (htok : ¬ C.cfg.uid <:+: t.source)
    (σ : PState) (hd : σ.spanDepth + 1 ≤ C.cfg.maxSpanDepth) :
    ∃ σ' q, ContInfo C t.source t.parts.length σ σ' q
      (openTagA tag (a.html C.cfg.restricted) ++ (bodyMid C.cfg.brTag t ++ closeTag tag)) tag a.source [] := by
  obtain ⟨xs, σ', hm⟩ := marked_text D (marked_source D h1 hR htok σ) hd
  have hT : TagText (uidOf base) (a.html C.cfg.restricted) := atts_tagText D.plain ha (by rw [← D.uid]; exact hca) _
  have hq := tagged_of D hm ht hT (fun e => notelist_merge D h1 σ (hnl e))
  have hb := marked_begins D.uni h1
  refine ⟨σ', _, ?_, hm.grow, hm.aux, hm.index, hq.rep, hq.nolist⟩
  refine cont_of_body (trim_first hb.first) (by simpa using hq.br [] (.of_lt (by simp)) rfl) ?_
  intro s k1 k2 k3 k4
  rw [blockBody_anonymous (tag_none_of hs) (.inl k1), k2, k3, k4]
  refine (runs_styled D.uni ha ht hb.ne hb.note hm.runs).bind ?_
  have e : (List.isEmpty ((merge C.cfg.uid t.lead (slots3 C.cfg.uid σ t).1).1 ++ mix (uidOf base) [] xs) ||
      (decide (tag = t!"p") && !hasRawText C.U ((merge C.cfg.uid t.lead (slots3 C.cfg.uid σ t).1).1 ++ mix (uidOf base) [] xs))) = false := by
    rw [hasRawText_mix D.uni hm.over]
    have := hm.ne
    simpa using this
  simp only [e, Bool.false_eq_true, if_false, List.append_assoc]
  exact Runs.pure _ _

theorem open_styled {C : Ctx} {base : Str} (D : DocCtx C base) {tag : Str} {a : Spec.Atts} (ha : a.Ok) (hca : containsStr C.cfg.uid a.source = false)
    (ht : tag ∈ brTags) (ht' : tag ∈ plainTags C.cfg.lite) {t : Spec.Marked} (h1 : t.Ok C.U.isLu C.cfg.lite) (hbe : a.Before t.source)
    (hnl : tag = t!"p" → ¬ Spec.notelistWord <+: t.source)
    (hR : t.Resolved (Spec.Resolves C.E.urlParse C.E.urlJoin C.cfg.restricted) C.cfg.rel) (htok : ¬ C.cfg.uid <:+: t.source)
    (σ : PState) (hd : σ.spanDepth + 1 ≤ C.cfg.maxSpanDepth) :
    ∃ σ' q, OpenTo C (tag ++ (a.source ++ (t!".. " ++ t.source))) σ σ' q tag a.source [] ∧ Grow C.cfg.uid σ σ' ∧ σ'.aux = σ.aux ∧
      σ'.refIndex ≤ σ.refIndex + 2 * t.parts.length ∧ (∀ τ : PState, Agrees C.cfg.uid σ' τ → σ'.refIndex < 2 ^ 32 → Rep C.cfg.uid τ q
        (openTagA tag (a.html C.cfg.restricted) ++ (bodyMid C.cfg.brTag t ++ closeTag tag))) ∧ containsStr t!"<p>notelist" q = false := by
  obtain ⟨xs, σ', hm⟩ := marked_text D (marked_source D h1 hR htok σ) hd
  have hT : TagText (uidOf base) (a.html C.cfg.restricted) := atts_tagText D.plain ha (by rw [← D.uid]; exact hca) _
  have hq := tagged_of D hm ht hT (fun e => notelist_merge D h1 σ (hnl e))
  have hb := marked_begins D.uni h1
  refine ⟨σ', _, ?_, hm.grow, hm.aux, hm.index, hq.rep, hq.nolist⟩
  obtain ⟨m, hm', g1, g2, g3, g4, g5⟩ := ext_captures C D.uni ht' ha hbe
  refine open_of_body ?_ (by simpa using hq.br [] (.of_lt (by simp)) rfl) ?_
  · exact trim_first (by obtain ⟨-, c, u, rfl, hc⟩ := plain_first _ _ ht'; exact ⟨c, _, rfl, hc⟩)
  · intro s hs
    rw [blockBody_tagged hm', g1, g2, g3, g4, g5]
    refine ⟨{ s with tag := tag, atts := a.source, ext := ['.'], cite := none, eat := false, lastClosing := [] },
      (runs_styled D.uni ha ht hb.ne hb.note hm.runs).bind ?_, ?_⟩
    · rw [hs]
      simp only [List.isEmpty_nil, if_true, List.nil_append, List.append_nil, ite_self, List.append_assoc]
      exact Runs.pure _ _
    · exact ⟨by simp, rfl, rfl, rfl, rfl, rfl, rfl, rfl, rfl⟩

theorem turns_styled {C : Ctx} {t : Spec.Marked} (h : t.Ok C.U.isLu C.cfg.lite) {tag att : Str} (ht : tag ∈ brTags) (ha : '<' ∉ att) :
    Turns (Spec.tidyBreaks C.cfg.brTag) (openTagA tag att ++ (bodyMid C.cfg.brTag t ++ closeTag tag))
      (Spec.elementWith tag att (t.html C.cfg.brTag)) := by
  intro r hr
  have := tidy_styled (z := []) (r := r) h ht ha
  simp only [List.nil_append] at this
  simp only [List.append_assoc, this, elementWith_eq]

theorem element_end {tag att c : Str} (h : '\n' ∉ tag) : Spec.elementWith tag att c ≠ [] ∧ (Spec.elementWith tag att c).getLast? ≠ some '\n' := by
  rw [elementWith_eq, ← List.append_assoc]
  exact styled_end _ _ h

theorem ext_lines {up : Char → Bool} {lite : Bool} {t : Spec.Marked} (ht : t.Ok up lite) {tag : Str} {a : Spec.Atts} (h : a.Ok)
    (h1 : '\n' ∉ tag ∧ '\r' ∉ tag ∧ encodeHtml tag false false = tag ∧ ∃ c u, tag = c :: u ∧ isWs c = false) :
    (∃ ls, ls ≠ [] ∧ (∀ l ∈ ls, Spec.RawLine l) ∧ tag ++ (a.source ++ (t!".. " ++ t.source)) = Spec.join t!"\n" ls) ∧
    ∃ c u, tag ++ (a.source ++ (t!".. " ++ t.source)) = c :: u ∧ isWs c = false := by
  obtain ⟨k1, k2⟩ := marked_lined ht
  obtain ⟨a1, a2⟩ := atts_nonl h
  obtain ⟨g1, g2, -, c, u, rfl, hc⟩ := h1
  refine ⟨?_, c, _, rfl, hc⟩
  have hl : lined (u ++ (a.source ++ (t!".. " ++ t.source))) = true :=
    lined_text (by simp at g1; exact g1.2) (lined_text a1 (lined_text (by decide) k1))
  have := lines_of _ (p := [c]) hl (by simp at g2; simp [g2, a2, k2]) (by simp; rintro rfl; revert hc; decide) (blank_not hc)
  simpa using this

theorem marked_lines {C : Ctx} (hU : UniOk C.U) {t : Spec.Marked} (ht : t.Ok C.U.isLu C.cfg.lite) :
    ∃ ls, ls ≠ [] ∧ (∀ l ∈ ls, Spec.RawLine l) ∧ t.source = Spec.join t!"\n" ls := by
  obtain ⟨k1, k2⟩ := marked_lined ht
  obtain ⟨c, u, e, hc⟩ := (marked_begins hU ht).first
  rw [e] at k1 k2 ⊢
  have := lines_of u (p := [c]) (lined_tail k1) (by simpa using k2) (by simp; rintro rfl; revert hc; decide) (blank_not hc)
  simpa using this

theorem infix_ext {x tag s t : Str} (h : x <:+: s ∨ x <:+: t) : x <:+: tag ++ (s ++ (t!".. " ++ t)) := by
  rcases h with ⟨a, b, e⟩ | ⟨a, b, e⟩
  · exact ⟨tag ++ a, b ++ (t!".. " ++ t), by rw [← e]; simp⟩
  · exact ⟨tag ++ (s ++ (t!".. " ++ a)), b, by rw [← e]; simp⟩

/-- The texts that continue a block with marks. -/
def MoreOk (C : Ctx) (tag : Str) (more : List (Nat × Spec.Marked)) : Prop :=
  ∀ p ∈ more, p.2.Ok C.U.isLu C.cfg.lite ∧ Spec.NoBlockStart C.U.isNd C.cfg.lite p.2.source ∧ (tag = t!"p" → ¬ Spec.notelistWord <+: p.2.source)

theorem sources_lines {C : Ctx} (hU : UniOk C.U) {tag : Str} {more : List (Nat × Spec.Marked)} (hm : MoreOk C tag more) :
    ∀ x ∈ (Spec.sourcesOf more).map (·.2), ∃ ls, ls ≠ [] ∧ (∀ l ∈ ls, Spec.RawLine l) ∧ x = Spec.join t!"\n" ls := by
  intro x hx
  simp only [Spec.sourcesOf, List.map_map, List.mem_map, Function.comp_apply] at hx
  obtain ⟨p, hp, rfl⟩ := hx
  exact marked_lines hU (hm p hp).1

theorem group_styled {C : Ctx} {base : Str} (D : DocCtx C base) {tag : Str} {a : Spec.Atts} {t : Spec.Marked} {more : List (Nat × Spec.Marked)}
    (h : (Spec.Node.styled tag a t).Ok C.U.isLu C.U.isNd C.cfg.lite C.cfg.restricted) (hm : MoreOk C tag more)
    (hR : t.Resolved (Spec.Resolves C.E.urlParse C.E.urlJoin C.cfg.restricted) C.cfg.rel)
    (hR' : ∀ p ∈ more, p.2.Resolved (Spec.Resolves C.E.urlParse C.E.urlJoin C.cfg.restricted) C.cfg.rel)
    (htok : ¬ C.cfg.uid <:+: tag ++ (a.source ++ (t!".. " ++ t.source))) (htok' : ∀ p ∈ more, ¬ C.cfg.uid <:+: p.2.source)
    {P : PState → Prop} (hP : ∀ σ σ', Keeps σ σ' → σ'.aux = σ.aux → P σ → P σ') :
    Group C P P (tag ++ (a.source ++ (t!".. " ++ t.source))) (Spec.sourcesOf more) (t.parts.length + (more.map (fun p => p.2.parts.length)).sum)
      (Spec.elementWith tag (a.html C.cfg.restricted) (t.html C.cfg.brTag) ++
        tailOf (more.map (fun p => (p.1, Spec.elementWith tag (a.html C.cfg.restricted) (p.2.html C.cfg.brTag))))) := by
  obtain ⟨h1, h2, h3, h4, h5, h6⟩ := h
  obtain ⟨m1, m2⟩ := tagged_mem h5
  have hca : containsStr C.cfg.uid a.source = false := contains_of_not (fun hi => htok (infix_ext (.inl hi)))
  have hct : ¬ C.cfg.uid <:+: t.source := fun hi => htok (infix_ext (.inr hi))
  obtain ⟨l1, l2⟩ := ext_lines h1 h2 (tagged_chars tag m1)
  have hlt : '<' ∉ a.html C.cfg.restricted := (atts_tagText D.plain h2 (by rw [← D.uid]; exact hca) _).nolt
  refine ⟨?_, l2, ?_, ?_⟩
  · intro x hx
    rcases List.mem_cons.1 hx with rfl | hx
    · exact l1
    · exact sources_lines D.uni hm x hx
  · intro σ hPσ hd
    obtain ⟨σ1, q, o1, o2, o3, o4, o5, o6⟩ := open_styled D h2 hca m1 m2 h1 h4 h6 hR hct σ hd
    obtain ⟨σ', qs, c1, c2, c3, c4, c5, c6⟩ := conts_info (C := C) (tag := tag) (atts := a.source) (close := []) (src := fun p : Nat × Spec.Marked => p.2.source)
      (mid := fun p => openTagA tag (a.html C.cfg.restricted) ++ (bodyMid C.cfg.brTag p.2 ++ closeTag tag)) (n := fun p => p.2.parts.length) (m := fun p => p.1)
      more (fun p hp σ hd => cont_styled D h2 hca m1 (hm p hp).1 (hm p hp).2.1 (hm p hp).2.2 (hR' p hp) (htok' p hp) σ hd) σ1 (by rw [o2.depth]; exact hd)
    have hg := o2.trans c2
    have haux : σ'.aux = σ.aux := by rw [c3, o3]
    refine ⟨σ1, σ', q, qs, tag, a.source, [], (openTagA tag (a.html C.cfg.restricted) ++ (bodyMid C.cfg.brTag t ++ closeTag tag)) ++
      tailOf (more.map (fun p => (p.1, openTagA tag (a.html C.cfg.restricted) ++ (bodyMid C.cfg.brTag p.2 ++ closeTag tag)))),
      o1, c1, hg.toGrows, hP _ _ (hg.keeps (by rw [haux])) haux hPσ, by omega, ?_, ?_, ?_⟩
    · intro τ g1 g2
      have := c2.toGrows.index
      rw [List.append_nil]
      exact (o5 τ (g1.before0 c2.toGrows) (by omega)).append (c5 τ g1 g2)
    · rw [List.append_nil]
      exact contains_tail (by decide) (by simp) c6 o6
    · exact Local.tail (tidy_local _) (fun p hp => turns_styled (hm p hp).1 m1 hlt) (turns_styled h1 m1 hlt)
  · refine nl_last (element_end (tagged_chars tag m1).1) ?_
    intro q hq
    obtain ⟨p, -, rfl⟩ := List.mem_map.1 hq
    exact element_end (tagged_chars tag m1).1

theorem cont_quoted {C : Ctx} {base : Str} (D : DocCtx C base) {a : Spec.Atts} (ha : a.Ok) (hca : containsStr C.cfg.uid a.source = false)
    {t : Spec.Marked} (h1 : t.Ok C.U.isLu C.cfg.lite) (hs : Spec.NoBlockStart C.U.isNd C.cfg.lite t.source)
    (hnl : ¬ Spec.notelistWord <+: t.source)
    (hR : t.Resolved (Spec.Resolves C.E.urlParse C.E.urlJoin C.cfg.restricted) C.cfg.rel) (htok : ¬ C.cfg.uid <:+: t.source)
    (σ : PState) (hd : σ.spanDepth + 1 ≤ C.cfg.maxSpanDepth) :
    ∃ σ' q, ContInfo C t.source t.parts.length σ σ' q
      ('\t' :: (openTagA t!"p" (a.html C.cfg.restricted) ++ (bodyMid C.cfg.brTag t ++ closeTag t!"p"))) t!"bq" a.source t!"\n</blockquote>" := by
  obtain ⟨xs, σ', hm⟩ := marked_text D (marked_source D h1 hR htok σ) hd
  have hT : TagText (uidOf base) (a.html C.cfg.restricted) := atts_tagText D.plain ha (by rw [← D.uid]; exact hca) _
  have hq := tagged_of D hm (tag := t!"p") (by decide) hT (fun e => notelist_merge D h1 σ hnl)
  have hb := marked_begins D.uni h1
  refine ⟨σ', '\t' :: _, ?_, hm.grow, hm.aux, hm.index, fun τ g1 g2 => (hq.rep τ g1 g2).text (w := ['\t']) (by decide), ?_⟩
  · refine cont_of_body (trim_first hb.first) (hq.br ['\t'] (brFree_decide (by decide)) rfl) ?_
    intro s k1 k2 k3 k4
    rw [blockBody_anonymous (tag_none_of hs) (.inl k1), k2, k3, k4]
    refine (runs_styled_quote D.uni ha hm.runs).bind ?_
    have e : (List.isEmpty ((merge C.cfg.uid t.lead (slots3 C.cfg.uid σ t).1).1 ++ mix (uidOf base) [] xs) ||
        (decide (t!"bq" = t!"p") && !hasRawText C.U ((merge C.cfg.uid t.lead (slots3 C.cfg.uid σ t).1).1 ++ mix (uidOf base) [] xs))) = false := by
      have := hm.ne
      simpa using this
    simp only [e, Bool.false_eq_true, if_false, List.append_assoc]
    exact Runs.pure _ _
  · exact containsStr_sep (a := []) (by decide) (by simp) (by decide) hq.nolist

theorem open_quoted {C : Ctx} {base : Str} (D : DocCtx C base) {a : Spec.Atts} (ha : a.Ok) (hca : containsStr C.cfg.uid a.source = false)
    {t : Spec.Marked} (h1 : t.Ok C.U.isLu C.cfg.lite) (hbe : a.Before t.source) (hnl : ¬ Spec.notelistWord <+: t.source)
    (hR : t.Resolved (Spec.Resolves C.E.urlParse C.E.urlJoin C.cfg.restricted) C.cfg.rel) (htok : ¬ C.cfg.uid <:+: t.source)
    (σ : PState) (hd : σ.spanDepth + 1 ≤ C.cfg.maxSpanDepth) :
    ∃ σ' q, OpenTo C (t!"bq" ++ (a.source ++ (t!".. " ++ t.source))) σ σ' q t!"bq" a.source t!"\n</blockquote>" ∧ Grow C.cfg.uid σ σ' ∧ σ'.aux = σ.aux ∧
      σ'.refIndex ≤ σ.refIndex + 2 * t.parts.length ∧ (∀ τ : PState, Agrees C.cfg.uid σ' τ → σ'.refIndex < 2 ^ 32 → Rep C.cfg.uid τ q
        (openTagA t!"blockquote" (a.html C.cfg.restricted) ++ (t!"\n\t" ++ (openTagA t!"p" (a.html C.cfg.restricted) ++
          (bodyMid C.cfg.brTag t ++ closeTag t!"p"))))) ∧ containsStr t!"<p>notelist" q = false := by
  obtain ⟨xs, σ', hm⟩ := marked_text D (marked_source D h1 hR htok σ) hd
  have hT : TagText (uidOf base) (a.html C.cfg.restricted) := atts_tagText D.plain ha (by rw [← D.uid]; exact hca) _
  generalize hat : a.html C.cfg.restricted = att at *
  have hq := tagged_of D hm (tag := t!"p") (by decide) hT (fun e => notelist_merge D h1 σ hnl)
  have hlt : '<' ∉ att ++ t!">\n\t" := by simp [hT.nolt]
  have hA : ∀ {n : Str}, n.head? = some '<' → Free n t!"<blockquote" → Free n (openTagA t!"blockquote" att ++ t!"\n\t") := by
    intro n hn hf
    have := hf.append (Free.of_head hn hlt)
    simpa [openTagA] using this
  refine ⟨σ', openTagA t!"blockquote" att ++ (t!"\n\t" ++ (openTagA t!"p" att ++ (brk C.cfg.brTag ((merge C.cfg.uid t.lead (slots3 C.cfg.uid σ t).1).1 ++
    mix (uidOf base) [] xs) ++ closeTag t!"p"))), ?_, hm.grow, hm.aux, hm.index, ?_, ?_⟩
  rotate_left 2
  · exact containsStr_sep (c := '\n') (b := '\t' :: _) (by decide) (by simp)
      (not_contains_of_free (by simp) (free_open (Free.of (by decide)) rfl hT.nolt))
      (containsStr_sep (a := []) (c := '\t') (by decide) (by simp) (by decide) hq.nolist)
  · obtain ⟨m, hm', g1, g2, g3, g4, g5⟩ := ext_captures C D.uni (tag := t!"bq") (t := t.source)
      (by unfold plainTags; split <;> decide) ha hbe
    refine open_of_body (trim_ne (by decide)) (by
      have := hq.br (openTagA t!"blockquote" att ++ t!"\n\t")
        ⟨hA rfl (Free.of (by decide)), hA rfl (Free.of (by decide)), hA rfl (Free.of (by decide)), hA rfl (Free.of (by decide))⟩
        (noPTag_free (hA rfl (Free.of (by decide))) (hA rfl (Free.of (by decide))))
      exact this.trans (by rw [List.append_assoc])) ?_
    intro s hs
    rw [blockBody_tagged hm', g1, g2, g3, g4, g5]
    have hr := runs_styled_quote D.uni ha hm.runs
    rw [hat] at hr
    refine ⟨{ s with tag := t!"bq", atts := a.source, ext := ['.'], cite := none, eat := false, lastClosing := t!"\n</blockquote>" },
      hr.bind ?_, ?_⟩
    · rw [hs]
      have e : ∀ x : Str, openTagA t!"blockquote" att ++ t!"\n" ++ '\t' :: openTagA t!"p" att ++ x ++ t!"</p>" ++ [] =
        openTagA t!"blockquote" att ++ t!"\n\t" ++ (openTagA t!"p" att ++ (x ++ closeTag t!"p")) := by
        intro x; simp [closeTag]
      simp only [List.isEmpty_nil, if_true, List.isEmpty_cons, Bool.false_eq_true, if_false, e]
      exact Runs.pure _ _
    · exact ⟨by simp, rfl, rfl, rfl, rfl, rfl, rfl, rfl, rfl⟩
  · intro τ k1 k2
    have := hq.rep τ k1 k2
    rw [D.uid] at this ⊢
    exact Rep.openTagA D.plain (tag := t!"blockquote") (by decide) hT (this.text (w := t!"\n\t") (by decide))

theorem group_quoted {C : Ctx} {base : Str} (D : DocCtx C base) {a : Spec.Atts} {t : Spec.Marked} {more : List (Nat × Spec.Marked)}
    (h : (Spec.Node.quoted a t).Ok C.U.isLu C.U.isNd C.cfg.lite C.cfg.restricted) (hm : MoreOk C t!"p" more)
    (hR : t.Resolved (Spec.Resolves C.E.urlParse C.E.urlJoin C.cfg.restricted) C.cfg.rel)
    (hR' : ∀ p ∈ more, p.2.Resolved (Spec.Resolves C.E.urlParse C.E.urlJoin C.cfg.restricted) C.cfg.rel)
    (htok : ¬ C.cfg.uid <:+: t!"bq" ++ (a.source ++ (t!".. " ++ t.source))) (htok' : ∀ p ∈ more, ¬ C.cfg.uid <:+: p.2.source)
    {P : PState → Prop} (hP : ∀ σ σ', Keeps σ σ' → σ'.aux = σ.aux → P σ → P σ') :
    Group C P P (t!"bq" ++ (a.source ++ (t!".. " ++ t.source))) (Spec.sourcesOf more) (t.parts.length + (more.map (fun p => p.2.parts.length)).sum)
      (openTagA t!"blockquote" (a.html C.cfg.restricted) ++ (t!"\n\t" ++ (Spec.elementWith t!"p" (a.html C.cfg.restricted) (t.html C.cfg.brTag) ++
        (tailOf (more.map (fun p => (p.1, '\t' :: Spec.elementWith t!"p" (a.html C.cfg.restricted) (p.2.html C.cfg.brTag)))) ++ t!"\n</blockquote>")))) := by
  obtain ⟨h1, h2, h3, h4, h6⟩ := h
  have hca : containsStr C.cfg.uid a.source = false := contains_of_not (fun hi => htok (infix_ext (.inl hi)))
  have hct : ¬ C.cfg.uid <:+: t.source := fun hi => htok (infix_ext (.inr hi))
  obtain ⟨l1, l2⟩ := ext_lines h1 h2 (tag := t!"bq") ⟨by decide, by decide, by decide, _, _, rfl, by decide⟩
  have hlt : '<' ∉ a.html C.cfg.restricted := (atts_tagText D.plain h2 (by rw [← D.uid]; exact hca) _).nolt
  refine ⟨?_, l2, ?_, ?_⟩
  · intro x hx
    rcases List.mem_cons.1 hx with rfl | hx
    · exact l1
    · exact sources_lines D.uni hm x hx
  · intro σ hPσ hd
    obtain ⟨σ1, q, o1, o2, o3, o4, o5, o6⟩ := open_quoted D h2 hca h1 h4 h6 hR hct σ hd
    obtain ⟨σ', qs, c1, c2, c3, c4, c5, c6⟩ := conts_info (C := C) (tag := t!"bq") (atts := a.source) (close := t!"\n</blockquote>") (src := fun p : Nat × Spec.Marked => p.2.source)
      (mid := fun p => '\t' :: (openTagA t!"p" (a.html C.cfg.restricted) ++ (bodyMid C.cfg.brTag p.2 ++ closeTag t!"p"))) (n := fun p => p.2.parts.length) (m := fun p => p.1)
      more (fun p hp σ hd => cont_quoted D h2 hca (hm p hp).1 (hm p hp).2.1 ((hm p hp).2.2 rfl) (hR' p hp) (htok' p hp) σ hd) σ1 (by rw [o2.depth]; exact hd)
    have hg := o2.trans c2
    have haux : σ'.aux = σ.aux := by rw [c3, o3]
    refine ⟨σ1, σ', q, qs, t!"bq", a.source, t!"\n</blockquote>", ((openTagA t!"blockquote" (a.html C.cfg.restricted) ++ (t!"\n\t" ++
      (openTagA t!"p" (a.html C.cfg.restricted) ++ (bodyMid C.cfg.brTag t ++ closeTag t!"p")))) ++
      tailOf (more.map (fun p => (p.1, '\t' :: (openTagA t!"p" (a.html C.cfg.restricted) ++ (bodyMid C.cfg.brTag p.2 ++ closeTag t!"p")))))) ++ t!"\n</blockquote>",
      o1, c1, hg.toGrows, hP _ _ (hg.keeps (by rw [haux])) haux hPσ, by omega, ?_, ?_, ?_⟩
    · intro τ g1 g2
      have := c2.toGrows.index
      have h8 := ((o5 τ (g1.before0 c2.toGrows) (by omega)).append (c5 τ g1 g2)).append ((Rep.nil (uid := C.cfg.uid) (σ := τ)).text (w := t!"\n</blockquote>") (by decide))
      simpa using h8
    · rw [← List.append_assoc]
      exact containsStr_sep (c := '\n') (by decide) (by simp) (contains_tail (by decide) (by simp) c6 o6) (by decide)
    · have h0 : Turns (Spec.tidyBreaks C.cfg.brTag) (openTagA t!"blockquote" (a.html C.cfg.restricted) ++ (t!"\n\t" ++
          (openTagA t!"p" (a.html C.cfg.restricted) ++ (bodyMid C.cfg.brTag t ++ closeTag t!"p"))))
          (openTagA t!"blockquote" (a.html C.cfg.restricted) ++ (t!"\n\t" ++ Spec.elementWith t!"p" (a.html C.cfg.restricted) (t.html C.cfg.brTag))) := by
        intro r hr
        rw [List.append_assoc, List.append_assoc, tidyBreaks_free (free_open (Free.of (by decide)) rfl hlt), tidyBreaks_free (Free.of (by decide)),
          turns_styled h1 (by decide) hlt r hr]
        simp
      have h9 := Local.tail (tidy_local C.cfg.brTag) (es := more) (m := fun p => p.1) (f := fun p => '\t' :: (openTagA t!"p" (a.html C.cfg.restricted) ++ (bodyMid C.cfg.brTag p.2 ++ closeTag t!"p")))
        (g := fun p => '\t' :: Spec.elementWith t!"p" (a.html C.cfg.restricted) (p.2.html C.cfg.brTag)) (fun p hp r hr => by
          rw [show ∀ x : Str, '\t' :: x ++ r = ['\t'] ++ (x ++ r) from fun _ => rfl, tidyBreaks_free (Free.of (by decide)),
            turns_styled (hm p hp).1 (by decide) hlt r hr]
          rfl) h0
      intro r hr
      rw [List.append_assoc, h9 (t!"\n</blockquote>" ++ r) (.inr ⟨_, rfl⟩), tidyBreaks_free (Free.of (by decide))]
      simp
  · have := styled_end (openTagA t!"blockquote" (a.html C.cfg.restricted) ++ (t!"\n\t" ++ (Spec.elementWith t!"p" (a.html C.cfg.restricted) (t.html C.cfg.brTag) ++
        (tailOf (more.map (fun p => (p.1, '\t' :: Spec.elementWith t!"p" (a.html C.cfg.restricted) (p.2.html C.cfg.brTag)))) ++ t!"\n")))) t!"blockquote" (by decide)
    simpa [closeTag] using this

/-! ## Documents -/

/-- The texts as they are seen. -/
def exSeen (r : Bool) (k : Nat) : Spec.ExItem → List (Str × Nat)
  | .one b => [(imBlockSeen r b, k)]
  | .verbatim tag a ls more => Spec.chain (tag ++ (a.source ++ (t!".. " ++ Spec.join t!"\n" (Spec.escapedLines r ls)))) (Spec.linesOf (Spec.escapedMore r more)) k
  | .styled tag a t more => Spec.chain (tag ++ (a.source ++ (t!".. " ++ (t.seen r).source))) (Spec.sourcesOf (more.map (fun p => (p.1, p.2.seen r)))) k
  | .quoted a t more => Spec.chain (t!"bq" ++ (a.source ++ (t!".. " ++ (t.seen r).source))) (Spec.sourcesOf (more.map (fun p => (p.1, p.2.seen r)))) k

theorem chain_map (f : Str → Str) (x : Str) (ps : List (Nat × Str)) (k : Nat) :
    (Spec.chain x ps k).map (fun p => (f p.1, p.2)) = Spec.chain (f x) (ps.map (fun p => (p.1, f p.2))) k := by
  induction ps generalizing x with
  | nil => rfl
  | cons p ps ih => simp [Spec.chain, ih]

/-- What the parser sees of a text. -/
def seenOf (C : Ctx) (t : Str) : Str := if C.cfg.restricted then encodeHtml t false false else t

theorem seenOf_marked {C : Ctx} {t : Spec.Marked} (h : t.Ok C.U.isLu C.cfg.lite) : seenOf C t.source = (t.seen C.cfg.restricted).source := by
  unfold seenOf Spec.Marked.seen
  split
  · exact enc_marked h
  · rfl

theorem seenOf_join {C : Ctx} (ls : List Str) : seenOf C (Spec.join t!"\n" ls) = Spec.join t!"\n" (Spec.escapedLines C.cfg.restricted ls) := by
  unfold seenOf Spec.escapedLines
  split
  · exact enc_join ls
  · rfl

theorem seenOf_tag {C : Ctx} {tag t : Str} {a : Spec.Atts} (ht : encodeHtml tag false false = tag) (h : a.Ok) (hw : a.Written C.cfg.restricted) :
    seenOf C (tag ++ (a.source ++ (t!".. " ++ t))) = tag ++ (a.source ++ (t!".. " ++ seenOf C t)) := by
  unfold seenOf
  by_cases hr : C.cfg.restricted = true
  · rw [if_pos hr, if_pos hr]
    rw [hr] at hw
    rw [enc_append, enc_append, enc_append, ht, enc_atts h hw]
    rfl
  · rw [if_neg hr, if_neg hr]

theorem ex_seen {C : Ctx} (hU : UniOk C.U) {d : Spec.ExItem} (h : d.Ok C.U.isLu C.U.isNd C.cfg.lite C.cfg.restricted) (k : Nat) :
    (d.pieces k).map (fun p => (seenOf C p.1, p.2)) = exSeen C.cfg.restricted k d := by
  have hmore : ∀ {more : List (Nat × Spec.Marked)}, (∀ p ∈ more, p.2.Ok C.U.isLu C.cfg.lite) →
      (Spec.sourcesOf more).map (fun p => (p.1, seenOf C p.2)) = Spec.sourcesOf (more.map (fun p => (p.1, p.2.seen C.cfg.restricted))) := by
    intro more hm
    simp only [Spec.sourcesOf, List.map_map]
    apply List.map_congr_left
    intro p hp
    simp only [Function.comp]
    rw [seenOf_marked (hm p hp)]
  cases d with
  | one b =>
    simp only [Spec.ExItem.pieces, exSeen, List.map_cons, List.map_nil]
    have := imBlock_seen hU h
    rw [show seenOf C b.source = _ from this]
  | verbatim tag a ls more =>
    obtain ⟨⟨h1, h2, h3, h4, h5, h6⟩, hm⟩ := h
    simp only [Spec.ExItem.pieces, exSeen, chain_map]
    rw [seenOf_tag (raw_chars tag (verbatim_mem h5).1).2.2.1 h2 h3, seenOf_join]
    congr 1
    simp only [Spec.linesOf, List.map_map, Function.comp_def, seenOf_join, Spec.escapedMore, Spec.escapedLines]
    split
    · simp
    · rfl
  | styled tag a t more =>
    obtain ⟨⟨h1, h2, h3, h4, h5, h6⟩, hm⟩ := h
    simp only [Spec.ExItem.pieces, exSeen, chain_map]
    rw [seenOf_tag (tagged_chars tag (tagged_mem h5).1).2.2.1 h2 h3, seenOf_marked h1, hmore (fun p hp => (hm p hp).1)]
  | quoted a t more =>
    obtain ⟨⟨h1, h2, h3, h4, h5⟩, hm⟩ := h
    simp only [Spec.ExItem.pieces, exSeen, chain_map]
    rw [show seenOf C (['b', 'q'] ++ (a.source ++ (['.', '.', ' '] ++ t.source))) = _ from seenOf_tag (tag := t!"bq") (by decide) h2 h3, seenOf_marked h1,
      hmore (fun p hp => (hm p hp).1)]

/-- The descriptions of the texts as they are seen. -/
theorem node_seen {C : Ctx} (hU : UniOk C.U) {b : Spec.Node} (h : b.Ok C.U.isLu C.U.isNd C.cfg.lite C.cfg.restricted) :
    (if C.cfg.restricted then b.escaped else b).Ok C.U.isLu C.U.isNd C.cfg.lite C.cfg.restricted := by
  by_cases hr : C.cfg.restricted = true
  · rw [if_pos hr, hr]
    rw [hr] at h
    exact (escaped_node hU h).1
  · rw [if_neg hr]; exact h

theorem more_seen {C : Ctx} (hU : UniOk C.U) {tag : Str} {more : List (Nat × Spec.Marked)} (hm : MoreOk C tag more) :
    MoreOk C tag (more.map (fun p => (p.1, p.2.seen C.cfg.restricted))) := by
  intro p hp
  obtain ⟨x, hx, rfl⟩ := List.mem_map.1 hp
  obtain ⟨h1, h2, h3⟩ := hm x hx
  unfold Spec.Marked.seen
  by_cases hr : C.cfg.restricted = true
  · simp only [if_pos hr]
    refine ⟨escaped_marked h1, ?_, ?_⟩
    · rw [← enc_marked h1]; exact noBlockStart_enc hU h2
    · intro e hp
      rw [← enc_marked h1] at hp
      exact h3 e (prefix_enc (by decide) hp)
  · simp only [if_neg hr]; exact ⟨h1, h2, h3⟩

theorem seen_marks (r : Bool) (t : Spec.Marked) : (t.seen r).parts.length = t.parts.length := by
  unfold Spec.Marked.seen
  split <;> simp [Spec.Marked.escaped]

theorem seen_resolved {R : Str → Str → Prop} {rel : Option Str} (r : Bool) {t : Spec.Marked} (h : t.Resolved R rel) : (t.seen r).Resolved R rel := by
  unfold Spec.Marked.seen
  split
  · exact escaped_resolved h
  · exact h

theorem enc_both (a b : Str) (q s : Bool) : encodeHtml (a ++ b) q s = encodeHtml a q s ++ encodeHtml b q s := by simp [encodeHtml]

theorem enc_nls (q : Bool) (n : Nat) : encodeHtml (nls n) q false = nls n := by
  induction n with
  | zero => rfl
  | succ n ih =>
    rw [show nls (n + 1) = ['\n'] ++ nls n from rfl, enc_both, ih]
    cases q <;> rfl

theorem enc_tail (q : Bool) (ps : List (Nat × Str)) : encodeHtml (tailOf ps) q false = tailOf (ps.map (fun p => (p.1, encodeHtml p.2 q false))) := by
  induction ps with
  | nil => rfl
  | cons p ps ih =>
    rw [tailOf_cons, List.map_cons, tailOf_cons, enc_both, enc_both, ih]
    congr 1
    exact enc_nls q _

theorem verbatim_html {C : Ctx} {tag : Str} (ht : tag ∈ [t!"bc", t!"pre", t!"notextile"]) (a : Spec.Atts) (ls : List Str) (more : List (Nat × List Str))
    (base br : Str) (asClass : Bool) (N : Spec.Numbers) (M : Spec.Notes) :
    (Spec.ExItem.verbatim tag a ls more).html br C.cfg.restricted asClass base N M =
      rawOpen C.cfg.restricted tag a ++ (rawValue tag (Spec.join t!"\n" (Spec.escapedLines C.cfg.restricted ls)) ++
        (tailOf ((Spec.linesOf (Spec.escapedMore C.cfg.restricted more)).map (fun p => (p.1, rawValue tag p.2))) ++ rawClose tag)) := by
  simp only [Spec.ExItem.html, Spec.verbatimText, glue_chain, rawOpen, rawClose, rawValue, escape_eq, enc_both, enc_tail]
  simp only [List.mem_cons, List.not_mem_nil, or_false] at ht
  rcases ht with rfl | rfl | rfl
  · simp [elementWith_eq, closeTag]
  · simp [elementWith_eq, closeTag]
  · simp

theorem escaped_continues {C : Ctx} (hU : UniOk C.U) {ls : List Str} (h : Spec.Continues C.U.isNd C.cfg.lite ls) :
    Spec.Continues C.U.isNd C.cfg.lite (ls.map (Spec.escape false)) := by
  obtain ⟨h1, h2, ⟨l, hl, c, hc, hs⟩, h4⟩ := h
  refine ⟨by simpa using h1, ?_, ?_, ?_⟩
  · intro x hx
    obtain ⟨y, hy, rfl⟩ := List.mem_map.1 hx
    exact raw_escape (h2 y hy)
  · refine ⟨_, List.mem_map.2 ⟨l, hl, rfl⟩, ?_⟩
    obtain ⟨u, v, rfl⟩ := List.append_of_mem hc
    rw [escape_eq, enc_append]
    obtain ⟨d, w, e, hd⟩ := enc_first (c := c) (t := v)
    rw [e]
    refine ⟨d, by simp, ?_⟩
    rcases hd with rfl | rfl
    · exact hs
    · decide
  · rw [← enc_join]
    exact noBlockStart_enc hU h4

theorem verbatim_seen {C : Ctx} (hU : UniOk C.U) {tag : Str} {a : Spec.Atts} {ls : List Str} {more : List (Nat × List Str)}
    (h : (Spec.ExItem.verbatim tag a ls more).Ok C.U.isLu C.U.isNd C.cfg.lite C.cfg.restricted) :
    (Spec.ExItem.verbatim tag a (Spec.escapedLines C.cfg.restricted ls) (Spec.escapedMore C.cfg.restricted more)).Ok C.U.isLu C.U.isNd C.cfg.lite C.cfg.restricted := by
  obtain ⟨h1, hm⟩ := h
  have h2 := node_seen hU h1
  unfold Spec.escapedLines Spec.escapedMore
  by_cases hr : C.cfg.restricted = true
  · simp only [hr, if_true] at h2 ⊢
    refine ⟨h2, ?_⟩
    intro p hp
    obtain ⟨x, hx, rfl⟩ := List.mem_map.1 hp
    exact ⟨escaped_continues hU (hm x hx).1, fun e => untouched_escape ((hm x hx).2 e)⟩
  · simp only [hr, Bool.false_eq_true, if_false]
    have hr' : C.cfg.restricted = false := by simpa using hr
    rw [hr'] at h1
    exact ⟨h1, hm⟩

theorem seen_heading {C : Ctx} (hU : UniOk C.U) {d : Spec.ExItem} (h : d.Ok C.U.isLu C.U.isNd C.cfg.lite C.cfg.restricted)
    (he : d.Ends C.cfg.lite C.cfg.restricted) (k : Nat) : ∀ p ∈ (exSeen C.cfg.restricted k d).head?, Heading C p.1 := by
  have hc : ∀ {x : Str} {ps : List (Nat × Str)} {k : Nat}, Heading C x → ∀ p ∈ (Spec.chain x ps k).head?, Heading C p.1 := by
    intro x ps k hx p hp
    cases ps <;> simp [Spec.chain] at hp <;> subst hp <;> exact hx
  cases d with
  | one b =>
    intro p hp
    simp only [exSeen, List.head?_cons, Option.mem_def, Option.some.injEq] at hp
    subst hp
    simp only
    rw [← imBlock_seen hU h]
    exact heading_seen hU he
  | verbatim tag a ls more =>
    obtain ⟨⟨h1, h2, h3, h4, h5, h6⟩, hm⟩ := verbatim_seen hU h
    exact hc (heading_ext hU (verbatim_mem h5).2 h2 h4)
  | styled tag a t more =>
    have := node_seen hU h.1
    have e : (if C.cfg.restricted then (Spec.Node.styled tag a t).escaped else .styled tag a t) = .styled tag a (t.seen C.cfg.restricted) := by
      unfold Spec.Marked.seen; split <;> rfl
    rw [e] at this
    obtain ⟨h1, h2, h3, h4, h5, h6⟩ := this
    exact hc (heading_ext hU (tagged_mem h5).2 h2 h4)
  | quoted a t more =>
    have := node_seen hU h.1
    have e : (if C.cfg.restricted then (Spec.Node.quoted a t).escaped else .quoted a t) = .quoted a (t.seen C.cfg.restricted) := by
      unfold Spec.Marked.seen; split <;> rfl
    rw [e] at this
    obtain ⟨h1, h2, h3, h4, h5⟩ := this
    exact hc (heading_ext hU (by unfold plainTags; split <;> decide) h2 h4)

theorem seen_ne (r : Bool) (k : Nat) (d : Spec.ExItem) : exSeen r k d ≠ [] := by
  cases d <;> simp only [exSeen] <;> first | exact chain_ne | simp

theorem chain_mem {x : Str} {ps : List (Nat × Str)} {k : Nat} {y : Str} (h : y ∈ x :: ps.map (·.2)) : ∃ n, (y, n) ∈ Spec.chain x ps k := by
  induction ps generalizing x with
  | nil => simp at h; subst h; exact ⟨k, by simp [Spec.chain]⟩
  | cons p ps ih =>
    rcases List.mem_cons.1 h with rfl | h
    · exact ⟨p.1, by simp [Spec.chain]⟩
    · obtain ⟨n, hn⟩ := ih (x := p.2) (by simpa using h)
      exact ⟨n, by simp [Spec.chain, hn]⟩

theorem ex_group {C : Ctx} {base : Str} (D : DocCtx C base) {d : Spec.ExItem} (he : d.extended = true)
    (h : d.Ok C.U.isLu C.U.isNd C.cfg.lite C.cfg.restricted)
    (hR : d.Resolved (Spec.Resolves C.E.urlParse C.E.urlJoin C.cfg.restricted) (Spec.Reads C.E.urlParse C.E.urlJoin) C.cfg.rel)
    {k : Nat} (htok : ∀ p ∈ exSeen C.cfg.restricted k d, ¬ C.cfg.uid <:+: p.1) (N : Spec.Numbers) (M : Spec.Notes) (asClass : Bool) :
    ∃ b bs, exSeen C.cfg.restricted k d = Spec.chain b bs k ∧
      Group C (fun σ => Num N σ ∧ FnState base aux0 M σ) (fun σ => Num (d.numbers N C.cfg.restricted) σ ∧ FnState base aux0 (d.notes M C.cfg.restricted) σ) b bs
        d.marks (d.html C.cfg.brTag C.cfg.restricted asClass base N M) := by
  have hP : ∀ σ σ' : PState, Keeps σ σ' → σ'.aux = σ.aux → (Num N σ ∧ FnState base aux0 M σ) → (Num N σ' ∧ FnState base aux0 M σ') :=
    fun σ σ' hk ha h => ⟨fun x => by rw [ha]; exact h.1 x, h.2.keeps hk⟩
  have ht : ∀ {x : Str} {ps : List (Nat × Str)}, exSeen C.cfg.restricted k d = Spec.chain x ps k → ∀ y ∈ x :: ps.map (·.2), ¬ C.cfg.uid <:+: y := by
    intro x ps e y hy
    obtain ⟨n, hn⟩ := chain_mem (k := k) hy
    exact htok (y, n) (by rw [e]; exact hn)
  have hsrc : ∀ {x : Str} {more : List (Nat × Spec.Marked)}, (∀ y ∈ x :: (Spec.sourcesOf more).map (·.2), ¬ C.cfg.uid <:+: y) →
      ∀ p ∈ more, ¬ C.cfg.uid <:+: p.2.source := fun h p hp =>
    h _ (List.mem_cons_of_mem _ (by simp only [Spec.sourcesOf, List.map_map]; exact List.mem_map.2 ⟨p, hp, rfl⟩))
  cases d with
  | one b => cases he
  | verbatim tag a ls more =>
    obtain ⟨k1, k2⟩ := verbatim_seen D.uni h
    have hm : ∀ p ∈ Spec.escapedMore C.cfg.restricted more, ¬ C.cfg.uid <:+: Spec.join t!"\n" p.2 := fun p hp =>
      ht rfl _ (List.mem_cons_of_mem _ (by simp only [Spec.linesOf, List.map_map]; exact List.mem_map.2 ⟨p, hp, rfl⟩))
    have hg := group_raw D k1 k2 (ht rfl _ (by simp)) hm hP
    have e2 : (Spec.escapedMore C.cfg.restricted more).length = more.length := by unfold Spec.escapedMore; split <;> simp
    rw [e2] at hg
    refine ⟨_, _, rfl, ?_⟩
    rw [verbatim_html (verbatim_mem h.1.2.2.2.2.1).1]
    exact hg
  | styled tag a t more =>
    have h1 := node_seen D.uni h.1
    have e : (if C.cfg.restricted then (Spec.Node.styled tag a t).escaped else .styled tag a t) = .styled tag a (t.seen C.cfg.restricted) := by
      unfold Spec.Marked.seen; split <;> rfl
    rw [e] at h1
    have hm := more_seen D.uni (tag := tag) (more := more) h.2
    have hg := group_styled D h1 hm (seen_resolved _ hR.1) (by
        intro p hp
        obtain ⟨x, hx, rfl⟩ := List.mem_map.1 hp
        exact seen_resolved _ (hR.2 x hx)) (ht rfl _ (by simp)) (hsrc (ht rfl)) hP
    refine ⟨_, _, rfl, ?_⟩
    have e1 : t.parts.length + (more.map (fun p => p.2.parts.length)).sum = (t.seen C.cfg.restricted).parts.length +
        ((more.map (fun p => (p.1, p.2.seen C.cfg.restricted))).map (fun p => p.2.parts.length)).sum := by
      simp [seen_marks, Function.comp_def]
    simp only [Spec.ExItem.marks, Spec.ExItem.html, glue_chain, Spec.elementsOf, Spec.ExItem.numbers, Spec.ExItem.notes]
    rw [e1]
    simpa only [List.map_map, Function.comp_def] using hg
  | quoted a t more =>
    have h1 := node_seen D.uni h.1
    have e : (if C.cfg.restricted then (Spec.Node.quoted a t).escaped else .quoted a t) = .quoted a (t.seen C.cfg.restricted) := by
      unfold Spec.Marked.seen; split <;> rfl
    rw [e] at h1
    have hm := more_seen D.uni (tag := t!"p") (more := more) (fun p hp => ⟨(h.2 p hp).1, (h.2 p hp).2.1, fun _ => (h.2 p hp).2.2⟩)
    have hg := group_quoted D h1 hm (seen_resolved _ hR.1) (by
        intro p hp
        obtain ⟨x, hx, rfl⟩ := List.mem_map.1 hp
        exact seen_resolved _ (hR.2 x hx)) (ht rfl _ (by simp)) (hsrc (ht rfl)) hP
    refine ⟨_, _, rfl, ?_⟩
    have e1 : t.parts.length + (more.map (fun p => p.2.parts.length)).sum = (t.seen C.cfg.restricted).parts.length +
        ((more.map (fun p => (p.1, p.2.seen C.cfg.restricted))).map (fun p => p.2.parts.length)).sum := by
      simp [seen_marks, Function.comp_def]
    simp only [Spec.ExItem.marks, Spec.ExItem.html, glue_chain, Spec.elementsOf, Spec.ExItem.numbers, Spec.ExItem.notes]
    rw [e1]
    rw [elementWith_eq ['b', 'l', 'o', 'c', 'k', 'q', 'u', 'o', 't', 'e']]
    simpa only [List.map_map, Function.comp_def, closeTag, List.append_assoc, List.cons_append, List.nil_append] using hg

theorem ex_gather {C : Ctx} {base : Str} (D : DocCtx C base) (hp : C.cfg.linkPrefix = base ++ t!"-") (hz : C.cfg.getSizes = false) (hno : C.cfg.noimage = false)
    {ok : Char → Prop} (ha : ∀ c, c.toNat < 128 → ok c) (hL : Lowers C.U ok) : ∀ (ds : List (Spec.ExItem × Nat))
    (_ : ∀ d ∈ ds, d.1.Ok C.U.isLu C.U.isNd C.cfg.lite C.cfg.restricted) (_ : Spec.Ended C.cfg.lite C.cfg.restricted ds) (_ : ∀ d ∈ ds, ∀ c ∈ d.1.chars, ok c)
    (_ : ∀ d ∈ ds, d.1.Resolved (Spec.Resolves C.E.urlParse C.E.urlJoin C.cfg.restricted) (Spec.Reads C.E.urlParse C.E.urlJoin) C.cfg.rel)
    (_ : ∀ d ∈ ds, ∀ p ∈ d.1.pieces d.2, ¬ C.cfg.uid <:+: p.1) (_ : ∀ d ∈ ds, ∀ p ∈ exSeen C.cfg.restricted d.2 d.1, ¬ C.cfg.uid <:+: p.1)
    (N : Spec.Numbers) (M : Spec.Notes),
    Gather C (fun σ => Num N σ ∧ FnState base aux0 M σ) (ds.flatMap (fun d => exSeen C.cfg.restricted d.2 d.1)) (Spec.exMarks ds)
      (Spec.exHtml C.cfg.brTag C.cfg.restricted (useAlignClass C.cfg) base N M ds)
  | [], _, _, _, _, _, _, N, M => .nil
  | d :: ds, h, he, hc, hR, ht, ht', N, M => by
    have ih := ex_gather (aux0 := aux0) D hp hz hno ha hL ds (fun x hx => h x (by simp [hx])) (by
      cases ds with
      | nil => trivial
      | cons e ds => exact he.2) (fun x hx => hc x (by simp [hx])) (fun x hx => hR x (by simp [hx])) (fun x hx => ht x (by simp [hx]))
      (fun x hx => ht' x (by simp [hx])) (d.1.numbers N C.cfg.restricted) (d.1.notes M C.cfg.restricted)
    rw [List.flatMap_cons, show Spec.exMarks (d :: ds) = d.1.marks + Spec.exMarks ds by simp [Spec.exMarks], Spec.exHtml]
    by_cases hx : d.1.extended = true
    · obtain ⟨b, bs, e, hg⟩ := ex_group D hx (h d (by simp)) (hR d (by simp)) (ht' d (by simp)) N M (useAlignClass C.cfg) (aux0 := aux0)
      rw [e]
      refine .group hg ?_ ih
      cases ds with
      | nil => intro p hp; cases hp
      | cons x ds =>
        intro p hp
        rw [List.flatMap_cons, List.head?_append] at hp
        obtain ⟨y, l, e2⟩ := List.exists_cons_of_ne_nil (seen_ne C.cfg.restricted x.2 x.1)
        have := seen_heading D.uni (h x (by simp)) (he.1 hx) x.2
        rw [e2] at this hp
        simp only [List.head?_cons, Option.some_or] at hp
        exact this p hp
    · obtain ⟨d, k⟩ := d
      cases d with
      | one b =>
        exact .act (act_im D hp hz hno ha hL (h (.one b, k) (by simp)) (hc (.one b, k) (by simp)) (hR (.one b, k) (by simp))
          (ht (.one b, k) (by simp) (b.source, k) (by simp [Spec.ExItem.pieces])) (ht' (.one b, k) (by simp) (imBlockSeen C.cfg.restricted b, k) (by simp [exSeen])) N M) ih
      | _ => exact absurd rfl hx

/-- What `parse` makes of documents with extended blocks. -/
theorem parse_extended {E : Env} {fuel : Nat} {cfg : Cfg} {base : Str} (D : DocCtx ⟨E, cfg, fuel⟩ base) (hp : cfg.linkPrefix = base ++ t!"-")
    (hz : cfg.getSizes = false) (hno : cfg.noimage = false)
    (hbt : cfg.blockTags = true) (hsan : cfg.sanitizer = none) (hdep : 1 ≤ cfg.maxSpanDepth) {ok : Char → Prop}
    (ha : ∀ c, c.toNat < 128 → ok c) (hL : Lowers E.U ok) {ds : List (Spec.ExItem × Nat)}
    (hne : ds ≠ []) (h : ∀ d ∈ ds, d.1.Ok E.U.isLu E.U.isNd cfg.lite cfg.restricted) (he : Spec.Ended cfg.lite cfg.restricted ds)
    (hc : ∀ d ∈ ds, ∀ c ∈ d.1.chars, ok c)
    (hR : ∀ d ∈ ds, d.1.Resolved (Spec.Resolves E.urlParse E.urlJoin cfg.restricted) (Spec.Reads E.urlParse E.urlJoin) cfg.rel)
    (htok : ¬ cfg.uid <:+: Spec.exSource ds) (hn : 2 * Spec.exMarks ds < 2 ^ 32) :
    parseFresh E fuel cfg (Spec.exSource ds) = .ok (Spec.exDocHtml cfg.brTag cfg.restricted (useAlignClass cfg) base ds) := by
  have hseen : ds.flatMap (fun d => exSeen cfg.restricted d.2 d.1) = (ds.flatMap (fun d => d.1.pieces d.2)).map (fun p => (seenOf ⟨E, cfg, fuel⟩ p.1, p.2)) := by
    rw [List.map_flatMap]
    clear hne he hc hR htok hn
    induction ds with
    | nil => rfl
    | cons d ds ih =>
      rw [List.flatMap_cons, List.flatMap_cons, ih (fun x hx => h x (by simp [hx])), ex_seen (C := ⟨E, cfg, fuel⟩) D.uni (h d (by simp))]
  have hp1 : ∀ d ∈ ds, ∀ p ∈ d.1.pieces d.2, ¬ cfg.uid <:+: p.1 := by
    intro d hd p hp hi
    exact htok (hi.trans (glue_infix (List.mem_flatMap.2 ⟨d, hd, hp⟩)))
  refine parse_gather D hbt hsan hdep (P := fun σ => Num (fun _ => 1) σ ∧ FnState base {} ⟨[], 0⟩ σ) ⟨fun _ => rfl, fun _ => rfl, rfl, rfl⟩
    (ex_gather D hp hz hno ha hL ds h he hc hR hp1 ?_ _ _) ?_ ?_ htok hn
  · intro d hd p hp
    rw [show (⟨E, cfg, fuel⟩ : Ctx).cfg.restricted = cfg.restricted from rfl, ← ex_seen (C := ⟨E, cfg, fuel⟩) D.uni (h d hd)] at hp
    obtain ⟨x, hx, rfl⟩ := List.mem_map.1 hp
    have h0 := contains_of_not (hp1 d hd x hx)
    simp only [seenOf]
    split
    · obtain ⟨c1, c2, -, -, -, -, c7, -⟩ := uid_chars D.plain
      have hu : cfg.uid = uidOf base := D.uid
      simp only [hu] at h0 ⊢
      rintro ⟨a, b, e⟩
      have := containsStr_enc (q := false) c1 c2 c7 h0
      rw [containsStr_iff.2 ⟨a, b, by rw [← e]; simp⟩] at this
      cases this
    · exact hp1 d hd x hx
  · obtain ⟨d, ds, rfl⟩ := List.exists_cons_of_ne_nil hne
    rw [List.flatMap_cons]
    intro e
    exact seen_ne _ _ _ (List.append_eq_nil_iff.1 e).1
  · show _ = Spec.glue (ds.flatMap (fun d => exSeen cfg.restricted d.2 d.1))
    rw [hseen]
    unfold seenOf
    by_cases hr : cfg.restricted = true
    · simp only [if_pos hr]
      exact enc_glue _
    · simp only [if_neg hr]
      simp [Spec.exSource]

end Rustextile
