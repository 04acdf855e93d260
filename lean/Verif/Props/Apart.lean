import Verif.Props.Raw

/-!
# Documents are converted piece by piece: C95
-/

namespace Rustextile

open Prog

/-- Nothing is counted in the block: neither items of numbered lists nor footnotes. -/
def Uncounted (restricted : Bool) (b : Spec.RawBlock) : Prop :=
  ∀ N M, b.numbers N restricted = N ∧ b.notes M restricted = M

/-- With this number of newlines after the last one. -/
def withGap {α : Type} (k : Nat) : List (α × Nat) → List (α × Nat)
  | [] => []
  | [(b, _)] => [(b, k)]
  | d :: e :: ds => d :: withGap k (e :: ds)

theorem withGap_map {α β : Type} (f : α → β) (k : Nat) : ∀ ds : List (α × Nat),
    (withGap k ds).map (fun d => (f d.1, d.2)) = withGap k (ds.map (fun d => (f d.1, d.2)))
  | [] => rfl
  | [(b, _)] => rfl
  | d :: e :: ds => by
    have := withGap_map f k (e :: ds)
    simp only [withGap, List.map_cons] at this ⊢
    rw [this]

theorem withGap_mem {α : Type} {k : Nat} : ∀ {ds : List (α × Nat)} {d : α × Nat}, d ∈ withGap k ds → ∃ n, (d.1, n) ∈ ds
  | [], d, h => by cases h
  | [(b, n)], d, h => by
    simp only [withGap, List.mem_singleton] at h
    subst h; exact ⟨n, by simp⟩
  | e :: f :: ds, d, h => by
    rcases List.mem_cons.1 h with rfl | h
    · exact ⟨e.2, by simp⟩
    · obtain ⟨n, hn⟩ := withGap_mem h
      exact ⟨n, List.mem_cons_of_mem _ hn⟩

theorem glue_gap {k : Nat} {qs : List (Str × Nat)} (hq : qs ≠ []) : ∀ {ps : List (Str × Nat)}, ps ≠ [] →
    Spec.glue (withGap k ps ++ qs) = Spec.glue ps ++ (nls (k + 2) ++ Spec.glue qs)
  | [], h => absurd rfl h
  | [(t, n)], _ => by
    simp only [withGap, List.cons_append, List.nil_append]
    rw [glue_cons hq]; rfl
  | (t, n) :: e :: ps, _ => by
    have := glue_gap (k := k) hq (ps := e :: ps) (by simp)
    simp only [withGap, List.cons_append]
    rw [glue_cons (by cases ps <;> simp [withGap]), this, glue_cons (ps := e :: ps) (by simp)]
    simp only [List.append_assoc]

theorem rawHtml_gap {h5 : Bool} {br base : Str} {r k : Bool} {n : Nat} {es : List (Spec.RawBlock × Nat)} {N : Spec.Numbers} {M : Spec.Notes} :
    ∀ {ds : List (Spec.RawBlock × Nat)}, (∀ d ∈ ds, Uncounted r d.1) →
      Spec.rawHtml h5 br r k base N M (withGap n ds ++ es) = withGap n (Spec.rawHtml h5 br r k base N M ds) ++ Spec.rawHtml h5 br r k base N M es
  | [], _ => rfl
  | [(b, m)], h => by
    have := h (b, m) (by simp) N M
    simp only [withGap, List.cons_append, List.nil_append, Spec.rawHtml]
    rw [this.1, this.2]
  | d :: e :: ds, h => by
    have h1 := h d (by simp) N M
    have ih := rawHtml_gap (h5 := h5) (br := br) (base := base) (r := r) (k := k) (n := n) (es := es) (N := N) (M := M)
      (ds := e :: ds) (fun x hx => h x (List.mem_cons_of_mem _ hx))
    simp only [withGap, List.cons_append, Spec.rawHtml] at ih ⊢
    rw [h1.1, h1.2]
    rw [ih]

theorem marks_gap {n : Nat} {es : List (Spec.RawBlock × Nat)} : ∀ {ds : List (Spec.RawBlock × Nat)},
    Spec.rawMarks (withGap n ds ++ es) = Spec.rawMarks ds + Spec.rawMarks es
  | [] => by simp [withGap, Spec.rawMarks]
  | [(b, m)] => by simp [withGap, Spec.rawMarks]
  | d :: e :: ds => by
    have := marks_gap (n := n) (es := es) (ds := e :: ds)
    simp only [withGap, Spec.rawMarks, List.cons_append, List.map_cons, List.sum_cons] at this ⊢
    omega

/-- **C95, part.** Two documents of the blocks of C87, one after the other with any number of empty lines between them,
become the HTML of the one and that of the other, with as many empty lines between them, if nothing is counted in
the first one.

Missing: other documents.  If something is counted, it is false (`C95_piecewise_fails`). -/
theorem C95_piecewise_partial (E : Env) (hU : UniOk E.U) (fuel : Nat) (hf : 3 ≤ fuel) (cfg : Cfg) (base : Str)
    (hb : Spec.PlainBase base) (huid : cfg.uid = t!"textileRef:" ++ base ++ t!":") (hp : cfg.linkPrefix = base ++ t!"-")
    (hcap : cfg.capsTempl = t!"$1<span class=\"caps\">" ++ cfg.uid ++ t!":glyph:$2</span>$3")
    (hz : cfg.getSizes = false) (hno : cfg.noimage = false)
    (hbt : cfg.blockTags = true) (hsan : cfg.sanitizer = none) (hdep : 1 ≤ cfg.maxSpanDepth)
    (ok : Char → Prop) (hL : Lowers E.U ok) (ha : ∀ c, c.toNat < 128 → ok c)
    (ds es : List (Spec.RawBlock × Nat)) (hd : ds ≠ []) (he : es ≠ [])
    (hok : ∀ d ∈ ds ++ es, d.1.Ok E.U.isLu E.U.isNd cfg.lite cfg.restricted)
    (hc : ∀ d ∈ ds ++ es, ∀ c ∈ d.1.chars, ok c)
    (hres : ∀ d ∈ ds ++ es, d.1.Resolved (Spec.Resolves E.urlParse E.urlJoin cfg.restricted) (Spec.Reads E.urlParse E.urlJoin) (Spec.Absolute E.urlParse) cfg.rel)
    (n : Nat) (htok : ¬ cfg.uid <:+: Spec.rawDocSource ds ++ (List.replicate (n + 2) '\n' ++ Spec.rawDocSource es))
    (hn : Spec.rawMarks ds + Spec.rawMarks es < 2 ^ 31) (hun : ∀ d ∈ ds, Uncounted cfg.restricted d.1) :
    ∃ one two, parseFresh E fuel cfg (Spec.rawDocSource ds) = .ok one ∧ parseFresh E fuel cfg (Spec.rawDocSource es) = .ok two ∧
      parseFresh E fuel cfg (Spec.rawDocSource ds ++ (List.replicate (n + 2) '\n' ++ Spec.rawDocSource es)) =
        .ok (one ++ (List.replicate (n + 2) '\n' ++ two)) := by
  have run := C87_raw_lines E hU fuel hf cfg base hb huid hp hcap hz hno hbt hsan hdep ok hL ha
  have hsrc : Spec.rawDocSource (withGap n ds ++ es) = Spec.rawDocSource ds ++ (List.replicate (n + 2) '\n' ++ Spec.rawDocSource es) := by
    unfold Spec.rawDocSource
    rw [List.map_append, withGap_map Spec.RawBlock.source, glue_gap (by simpa using he) (by simpa using hd)]
    rfl
  have hin : ∀ d ∈ withGap n ds ++ es, ∃ m, (d.1, m) ∈ ds ++ es := by
    intro d hm
    rcases List.mem_append.1 hm with hm | hm
    · obtain ⟨m, hm⟩ := withGap_mem hm
      exact ⟨m, List.mem_append_left _ hm⟩
    · exact ⟨d.2, List.mem_append_right _ hm⟩
  refine ⟨_, _, run ds hd (fun d h => hok d (List.mem_append_left _ h)) (fun d h => hc d (List.mem_append_left _ h))
      (fun d h => hres d (List.mem_append_left _ h)) (fun h => htok (h.trans ⟨[], _, by simp; rfl⟩)) (by omega),
    run es he (fun d h => hok d (List.mem_append_right _ h)) (fun d h => hc d (List.mem_append_right _ h))
      (fun d h => hres d (List.mem_append_right _ h)) (fun h => htok (h.trans ⟨Spec.rawDocSource ds ++ List.replicate (n + 2) '\n', [], by simp⟩)) (by omega), ?_⟩
  have h := run (withGap n ds ++ es) (by simp [he]) (fun d h => (hin d h).elim fun m hm => hok (d.1, m) hm)
    (fun d h => (hin d h).elim fun m hm => hc (d.1, m) hm) (fun d h => (hin d h).elim fun m hm => hres (d.1, m) hm) (by rw [hsrc]; exact htok)
    (by rw [marks_gap]; exact hn)
  rw [hsrc] at h
  rw [h]
  unfold Spec.rawDocHtml
  rw [rawHtml_gap hun, glue_gap]
  · rfl
  · cases es with
    | nil => exact absurd rfl he
    | cons e es => simp [Spec.rawHtml]
  · cases ds with
    | nil => exact absurd rfl hd
    | cons e es => simp [Spec.rawHtml]

/-- **C95, negation.** A list that goes on does so if it is in the same document. -/
theorem C95_piecewise_fails :
    parseFresh demoEnv 3 demoCfg t!"# a" = .ok t!"<ol>\n\t<li>a</li>\n</ol>" ∧
    parseFresh demoEnv 3 demoCfg t!"#_ b" = .ok t!"<ol start=\"1\">\n\t<li>b</li>\n</ol>" ∧
    parseFresh demoEnv 3 demoCfg t!"# a\n\n#_ b" = .ok t!"<ol>\n\t<li>a</li>\n</ol>\n\n<ol start=\"2\">\n\t<li>b</li>\n</ol>" := by
  refine ⟨by kernel_rfl, by kernel_rfl, by kernel_rfl⟩

/-- The document of C87 twice, with three empty lines in between. -/
theorem C95_piecewise_ex : ∃ one two, parseFresh demoEnv 3 demoCfg (Spec.rawDocSource demoRawDoc) = .ok one ∧
    parseFresh demoEnv 3 demoCfg (Spec.rawDocSource demoRawDoc) = .ok two ∧
    parseFresh demoEnv 3 demoCfg (Spec.rawDocSource demoRawDoc ++ (t!"\n\n\n\n" ++ Spec.rawDocSource demoRawDoc)) = .ok (one ++ (t!"\n\n\n\n" ++ two)) :=
  C95_piecewise_partial demoEnv UniOk.demo 3 (by decide) demoCfg t!"abc" plainBase_demo rfl rfl rfl rfl rfl rfl rfl (by decide)
    _ demo_lowers (fun _ h => h) demoRawDoc demoRawDoc (by decide) (by decide)
    (fun d hd => (List.mem_append.1 hd).elim (demoRaw_ok d) (demoRaw_ok d)) (by decide +kernel)
    (fun d hd => (List.mem_append.1 hd).elim (demoRaw_res d) (demoRaw_res d)) 2 (by decide +kernel) (by decide) (by
      intro d hd
      simp only [demoRawDoc, List.mem_cons, List.not_mem_nil, or_false] at hd
      rcases hd with rfl | rfl | rfl | rfl <;> exact fun _ _ => ⟨rfl, rfl⟩)

end Rustextile
