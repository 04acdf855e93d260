import Verif.RawDoc
import Verif.Props.Anchors

/-!
# HTML rules and images, and indented texts: C87, C88, C89
-/

namespace Rustextile

open Prog

/-- **C87.** A document of HTML tags of rules and images on lines of their own, of indented texts with links, and of the blocks of C83, in any order. -/
theorem C87_raw_lines (E : Env) (hU : UniOk E.U) (fuel : Nat) (hf : 3 ≤ fuel) (cfg : Cfg) (base : Str)
    (hb : Spec.PlainBase base) (huid : cfg.uid = t!"textileRef:" ++ base ++ t!":") (hp : cfg.linkPrefix = base ++ t!"-")
    (hcap : cfg.capsTempl = t!"$1<span class=\"caps\">" ++ cfg.uid ++ t!":glyph:$2</span>$3")
    (hz : cfg.getSizes = false) (hno : cfg.noimage = false)
    (hbt : cfg.blockTags = true) (hsan : cfg.sanitizer = none) (hdep : 1 ≤ cfg.maxSpanDepth)
    (ok : Char → Prop) (hL : Lowers E.U ok) (ha : ∀ c, c.toNat < 128 → ok c)
    (ds : List (Spec.RawBlock × Nat)) (hne : ds ≠ []) (hok : ∀ d ∈ ds, d.1.Ok E.U.isLu E.U.isNd cfg.lite cfg.restricted)
    (hc : ∀ d ∈ ds, ∀ c ∈ d.1.chars, ok c)
    (hres : ∀ d ∈ ds, d.1.Resolved (Spec.Resolves E.urlParse E.urlJoin cfg.restricted) (Spec.Reads E.urlParse E.urlJoin) (Spec.Absolute E.urlParse) cfg.rel)
    (htok : ¬ cfg.uid <:+: Spec.rawDocSource ds)
    (hn : Spec.rawMarks ds < 2 ^ 31) :
    parseFresh E fuel cfg (Spec.rawDocSource ds) =
      .ok (Spec.rawDocHtml cfg.html5 (if cfg.html5 then t!"<br>" else t!"<br />") cfg.restricted (cfg.alignClass.getD cfg.html5) base ds) :=
  parse_rawDoc (⟨hU, hf, hb, huid⟩ : DocCtx ⟨E, cfg, fuel⟩ base) hp hcap hz hno hbt hsan hdep ha hL hne hok hc hres htok (by omega)

/-! ## Parts -/

theorem rawHtml_mem (h5 : Bool) (br base : Str) (restricted k : Bool) {b : Spec.RawBlock} {n : Nat} : ∀ {ds : List (Spec.RawBlock × Nat)} {N : Spec.Numbers} {M : Spec.Notes},
    (b, n) ∈ ds → ∃ N' M', (b.html h5 br restricted k base N' M', n) ∈ Spec.rawHtml h5 br restricted k base N M ds
  | [], _, _, h => by cases h
  | d :: ds, N, M, h => by
    rcases List.mem_cons.1 h with rfl | h
    · exact ⟨N, M, by simp [Spec.rawHtml]⟩
    · obtain ⟨N', M', h'⟩ := rawHtml_mem h5 br base restricted k (ds := ds) (N := d.1.numbers N restricted) (M := d.1.notes M restricted) h
      exact ⟨N', M', by simp [Spec.rawHtml, h']⟩

/-- The text `x` stands in `out` with an empty line, or nothing, before and after it. -/
def OnItsOwn (x out : Str) : Prop := ∃ A B, out = A ++ (x ++ B) ∧ (A = [] ∨ t!"\n\n" <:+ A) ∧ (B = [] ∨ t!"\n\n" <+: B)

theorem glue_own {x : Str} {n : Nat} : ∀ {ps : List (Str × Nat)}, (x, n) ∈ ps → OnItsOwn x (Spec.glue ps)
  | [], h => by cases h
  | [p], h => by
    rw [List.mem_singleton] at h
    subst h
    exact ⟨[], [], by simp [Spec.glue], .inl rfl, .inl rfl⟩
  | p :: q :: ps, h => by
    obtain ⟨t, k⟩ := p
    have e : Spec.glue ((t, k) :: q :: ps) = t ++ (t!"\n\n" ++ (List.replicate k '\n' ++ Spec.glue (q :: ps))) := by
      simp [Spec.glue, List.replicate_succ]
    have e' : List.replicate k '\n' ++ t!"\n\n" = t!"\n\n" ++ List.replicate k '\n' := by
      have : t!"\n\n" = List.replicate 2 '\n' := rfl
      rw [this, List.replicate_append_replicate, List.replicate_append_replicate, Nat.add_comm]
    rw [e]
    rcases List.mem_cons.1 h with h | h
    · cases h
      exact ⟨[], _, rfl, .inl rfl, .inr ⟨_, rfl⟩⟩
    · obtain ⟨A, B, h1, h2, h3⟩ := glue_own h
      refine ⟨t ++ (List.replicate k '\n' ++ (t!"\n\n" ++ A)), B, ?_, .inr ?_, h3⟩
      · rw [h1, ← List.append_assoc t!"\n\n", ← e']
        simp
      · rcases h2 with rfl | ⟨A', rfl⟩
        · exact ⟨t ++ List.replicate k '\n', by simp⟩
        · exact ⟨t ++ (List.replicate k '\n' ++ (t!"\n\n" ++ A')), by simp⟩

/-- **C88 (partial).** In the documents of C87, the HTML tags of rules and images on a line of their own are in the output as they were
written, with an empty line before and after them, not in a paragraph. -/
theorem C88_rules_kept_partial (E : Env) (hU : UniOk E.U) (fuel : Nat) (hf : 3 ≤ fuel) (cfg : Cfg) (base : Str)
    (hb : Spec.PlainBase base) (huid : cfg.uid = t!"textileRef:" ++ base ++ t!":") (hp : cfg.linkPrefix = base ++ t!"-")
    (hcap : cfg.capsTempl = t!"$1<span class=\"caps\">" ++ cfg.uid ++ t!":glyph:$2</span>$3")
    (hz : cfg.getSizes = false) (hno : cfg.noimage = false)
    (hbt : cfg.blockTags = true) (hsan : cfg.sanitizer = none) (hdep : 1 ≤ cfg.maxSpanDepth)
    (ok : Char → Prop) (hL : Lowers E.U ok) (ha : ∀ c, c.toNat < 128 → ok c)
    (ds : List (Spec.RawBlock × Nat)) (hok : ∀ d ∈ ds, d.1.Ok E.U.isLu E.U.isNd cfg.lite cfg.restricted)
    (hc : ∀ d ∈ ds, ∀ c ∈ d.1.chars, ok c)
    (hres : ∀ d ∈ ds, d.1.Resolved (Spec.Resolves E.urlParse E.urlJoin cfg.restricted) (Spec.Reads E.urlParse E.urlJoin) (Spec.Absolute E.urlParse) cfg.rel)
    (htok : ¬ cfg.uid <:+: Spec.rawDocSource ds)
    (hn : Spec.rawMarks ds < 2 ^ 31) (ts : List Spec.RawTag) (n : Nat) (hm : (Spec.RawBlock.rule ts, n) ∈ ds) :
    ∃ out, parseFresh E fuel cfg (Spec.rawDocSource ds) = .ok out ∧ OnItsOwn (Spec.rawSource ts) out := by
  obtain ⟨N', M', h'⟩ := rawHtml_mem cfg.html5 (if cfg.html5 then t!"<br>" else t!"<br />") base cfg.restricted (cfg.alignClass.getD cfg.html5) (N := fun _ => 1) (M := ⟨[], 0⟩) hm
  exact ⟨_, C87_raw_lines E hU fuel hf cfg base hb huid hp hcap hz hno hbt hsan hdep ok hL ha ds (List.ne_nil_of_mem hm) hok hc hres htok hn, glue_own h'⟩

/-- **C89 (partial).** In the documents of C87, a text that starts with a space, and that has no links, is in the output as it was written: with its
spaces and newlines, without break tags, and not in a paragraph. -/
theorem C89_indented_kept_partial (E : Env) (hU : UniOk E.U) (fuel : Nat) (hf : 3 ≤ fuel) (cfg : Cfg) (base : Str)
    (hb : Spec.PlainBase base) (huid : cfg.uid = t!"textileRef:" ++ base ++ t!":") (hp : cfg.linkPrefix = base ++ t!"-")
    (hcap : cfg.capsTempl = t!"$1<span class=\"caps\">" ++ cfg.uid ++ t!":glyph:$2</span>$3")
    (hz : cfg.getSizes = false) (hno : cfg.noimage = false)
    (hbt : cfg.blockTags = true) (hsan : cfg.sanitizer = none) (hdep : 1 ≤ cfg.maxSpanDepth)
    (ok : Char → Prop) (hL : Lowers E.U ok) (ha : ∀ c, c.toNat < 128 → ok c)
    (ds : List (Spec.RawBlock × Nat)) (hok : ∀ d ∈ ds, d.1.Ok E.U.isLu E.U.isNd cfg.lite cfg.restricted)
    (hc : ∀ d ∈ ds, ∀ c ∈ d.1.chars, ok c)
    (hres : ∀ d ∈ ds, d.1.Resolved (Spec.Resolves E.urlParse E.urlJoin cfg.restricted) (Spec.Reads E.urlParse E.urlJoin) (Spec.Absolute E.urlParse) cfg.rel)
    (htok : ¬ cfg.uid <:+: Spec.rawDocSource ds)
    (hn : Spec.rawMarks ds < 2 ^ 31) (w : Str) (n : Nat) (hm : (Spec.RawBlock.indented ⟨w, []⟩, n) ∈ ds) :
    ∃ out, parseFresh E fuel cfg (Spec.rawDocSource ds) = .ok out ∧ OnItsOwn w out := by
  obtain ⟨N', M', h'⟩ := rawHtml_mem cfg.html5 (if cfg.html5 then t!"<br>" else t!"<br />") base cfg.restricted (cfg.alignClass.getD cfg.html5) (N := fun _ => 1) (M := ⟨[], 0⟩) hm
  refine ⟨_, C87_raw_lines E hU fuel hf cfg base hb huid hp hcap hz hno hbt hsan hdep ok hL ha ds (List.ne_nil_of_mem hm) hok hc hres htok hn, ?_⟩
  have := glue_own h'
  simpa [Spec.RawBlock.html, Spec.AnText.flat, Spec.rawDocHtml] using this

/-! ## Where the claims fail -/

/-- C88 does not hold for break tags, which the same lines can have: they are rewritten. -/
theorem C88_rules_kept_fails : parseFresh demoEnv 3 demoCfg t!"a\n\n<br /><hr>\n\nb" = .ok t!"<p>a</p>\n\n<br>\n<hr>\n\n<p>b</p>" := by kernel_rfl

/-- Nor for a rule on a line of its own that is next to a line of text. -/
theorem C88_rules_kept_fails_beside : parseFresh demoEnv 3 demoCfg t!"a\n\n<hr>\nb" = .ok t!"<p>a</p>\n\n<p><hr><br>\nb</p>" := by kernel_rfl

/-! ## Examples -/

def demoRule : List Spec.RawTag := [⟨t!"hr", t!" class=\"big\" title='x -- (c)'"⟩, ⟨t!"img", t!" src=\"/a.png\"/"⟩, ⟨t!"hr", t!"/"⟩]

def demoIndented : Spec.AnText := ⟨t!"  Dear reader,\nsee ", [(demoAnchor, t!", or\n"), (demoAnchor2, t!".")]⟩

def demoVerse : Str := t!" one\ntwo, two\nthree"

def demoRawDoc : List (Spec.RawBlock × Nat) :=
  [(.indented demoIndented, 0), (.rule demoRule, 1), (.other (.para demoAnText), 0), (.indented ⟨demoVerse, []⟩, 0)]

theorem demoIndented_ok : demoIndented.Ok demoUni.isLu := by
  refine ⟨prose_of_B (by decide), fun _ => .inr ⟨t!"  Dear reader,\nsee", ' ', rfl, .inl rfl⟩, ?_, ?_, ⟨' ', _, rfl, by decide⟩, ?_⟩
  · intro p hp
    simp only [demoIndented, List.mem_cons, List.not_mem_nil, or_false] at hp
    rcases hp with rfl | rfl
    · exact ⟨demoAnchor_ok.1, prose_of_B (by decide)⟩
    · exact ⟨demoAnchor2_ok, prose_of_B (by decide)⟩
  · intro p hp
    simp only [demoIndented, List.dropLast, List.mem_cons, List.not_mem_nil, or_false] at hp
    subst hp
    exact ⟨t!", or", '\n', rfl, .inr rfl⟩
  · rintro ⟨u, c, e, hc⟩
    have := congrArg List.getLast? e
    rw [List.getLast?_concat] at this
    rcases hc with rfl | rfl <;> (revert this; decide +kernel)

theorem demoVerse_ok : Spec.AnText.Ok demoUni.isLu ⟨demoVerse, []⟩ := by
  refine ⟨prose_of_B (by decide), by simp, by simp, by simp, ⟨' ', _, rfl, by decide⟩, ?_⟩
  rintro ⟨u, c, e, hc⟩
  have := congrArg List.getLast? e
  rw [List.getLast?_concat] at this
  rcases hc with rfl | rfl <;> (revert this; decide +kernel)

theorem demoRaw_ok : ∀ d ∈ demoRawDoc, d.1.Ok demoUni.isLu demoUni.isNd false false := by
  intro d hd
  simp only [demoRawDoc, List.mem_cons, List.not_mem_nil, or_false] at hd
  rcases hd with rfl | rfl | rfl | rfl
  · exact ⟨demoIndented_ok, 1, 'D', _, rfl, by decide, by decide⟩
  · refine ⟨by decide, ?_, rfl⟩
    intro t ht
    simp only [demoRule, List.mem_cons, List.not_mem_nil, or_false] at ht
    rcases ht with rfl | rfl | rfl
    · exact ⟨.inl rfl, .inr (.inr ⟨_, rfl⟩), by decide⟩
    · exact ⟨.inr rfl, .inr (.inr ⟨_, rfl⟩), by decide⟩
    · exact ⟨.inl rfl, .inr (.inl rfl), by decide⟩
  · exact demoAn_doc (.para demoAnText, 0) (by simp [demoAnDoc])
  · exact ⟨demoVerse_ok, 0, 'o', _, rfl, by decide, by decide⟩

theorem demoRaw_res : ∀ d ∈ demoRawDoc, d.1.Resolved (Spec.Resolves demoEnv.urlParse demoEnv.urlJoin false) (Spec.Reads demoEnv.urlParse demoEnv.urlJoin) (Spec.Absolute demoEnv.urlParse) none := by
  intro d hd
  simp only [demoRawDoc, List.mem_cons, List.not_mem_nil, or_false] at hd
  rcases hd with rfl | rfl | rfl | rfl
  · exact demoAn_res1 false
  · trivial
  · exact demoAn_res1 false
  · intro p hp; cases hp

/-- An indented text with links, rules and an image, a paragraph, and an indented text. -/
theorem C87_raw_lines_ex : parseFresh demoEnv 3 demoCfg t!"  Dear reader,\nsee \"(big red#k1)the shop(R&D; it's open)\":http://a.com/x, or\n\"[en]{color:red}here\":/y.\n\n<hr class=\"big\" title='x -- (c)'><img src=\"/a.png\"/><hr/>\n\n\nSee \"(big red#k1)the shop(R&D; it's open)\":http://a.com/x, or\n\"[en]{color:red}here\":/y.\n\n one\ntwo, two\nthree" =
    .ok t!"  Dear reader,\nsee <a class=\"big red\" href=\"http://a.com/x\" id=\"k1\" title=\"R&amp;D; it's open\">the shop</a>, or\n<a href=\"/y\" lang=\"en\" style=\"color:red;\">here</a>.\n\n<hr class=\"big\" title='x -- (c)'><img src=\"/a.png\"/><hr/>\n\n\n<p>See <a class=\"big red\" href=\"http://a.com/x\" id=\"k1\" title=\"R&amp;D; it's open\">the shop</a>, or<br>\n<a href=\"/y\" lang=\"en\" style=\"color:red;\">here</a>.</p>\n\n one\ntwo, two\nthree" := by
  have := C87_raw_lines demoEnv UniOk.demo 3 (by decide) demoCfg t!"abc" plainBase_demo rfl rfl rfl rfl rfl rfl rfl (by decide)
    _ demo_lowers (fun _ h => h) demoRawDoc (by decide) demoRaw_ok (by decide +kernel) demoRaw_res (by decide +kernel) (by decide)
  refine Eq.trans (Eq.trans ?_ this) ?_ <;> exact congrArg _ (by decide +kernel)

/-- The rules and the image there. -/
theorem C88_rules_kept_ex : ∃ out, parseFresh demoEnv 3 demoCfg (Spec.rawDocSource demoRawDoc) = .ok out ∧
    OnItsOwn t!"<hr class=\"big\" title='x -- (c)'><img src=\"/a.png\"/><hr/>" out :=
  C88_rules_kept_partial demoEnv UniOk.demo 3 (by decide) demoCfg t!"abc" plainBase_demo rfl rfl rfl rfl rfl rfl rfl (by decide)
    _ demo_lowers (fun _ h => h) demoRawDoc demoRaw_ok (by decide +kernel) demoRaw_res (by decide +kernel) (by decide)
    demoRule 1 (by simp [demoRawDoc])

/-- The last text there. -/
theorem C89_indented_kept_ex : ∃ out, parseFresh demoEnv 3 demoCfg (Spec.rawDocSource demoRawDoc) = .ok out ∧
    OnItsOwn t!" one\ntwo, two\nthree" out :=
  C89_indented_kept_partial demoEnv UniOk.demo 3 (by decide) demoCfg t!"abc" plainBase_demo rfl rfl rfl rfl rfl rfl rfl (by decide)
    _ demo_lowers (fun _ h => h) demoRawDoc demoRaw_ok (by decide +kernel) demoRaw_res (by decide +kernel) (by decide)
    demoVerse 0 (by simp [demoRawDoc])

end Rustextile
