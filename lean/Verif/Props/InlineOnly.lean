import Verif.Props.Links

/-!
# What inline mode makes: C101
-/

namespace Rustextile

open Prog

/-- The elements of inline markup. -/
def inlineNames : List Str := [t!"strong", t!"b", t!"cite", t!"em", t!"i", t!"del", t!"span", t!"ins", t!"sub", t!"sup"]

/-- A tag of such an element. -/
inductive InlineTag : Str → Prop where
  | opens {n a : Str} : n ∈ inlineNames → InlineTag (t!"<" ++ n ++ a ++ t!">")
  | closes {n : Str} : n ∈ inlineNames → InlineTag (t!"</" ++ n ++ t!">")

/-- A quotation mark in quotation marks, or a tag of inline markup. -/
inductive InlineEvent : Event → Prop where
  | quote (k v : Str) : InlineEvent (.stored .text k v)
  | tag {d n : Nat} {v : Str} : InlineTag v → InlineEvent (.cached .tag d n v)

section
variable {C : Ctx} {α : Type}

theorem ie_ret (a : α) : AllEvents C InlineEvent (Prog.ret a) := by intro w e he; simp [trace] at he

theorem ie_ofR (r : R α) : AllEvents C InlineEvent (Prog.ofR r) := by
  cases r <;> intro w e he <;> simp [Prog.ofR, trace] at he

theorem ie_getSt : AllEvents C InlineEvent getStP := by intro w e he; simp [getStP, trace] at he

theorem ie_getPat (s : Site) : AllEvents C InlineEvent (getPatP s) := by intro w e he; simp [getPatP, trace] at he

theorem ie_mapSegs {f : Mat → Prog Str} (hf : ∀ m, AllEvents C InlineEvent (f m)) : ∀ l, AllEvents C InlineEvent (mapSegs f l)
  | [] => ie_ret _
  | x :: t => by
    have ih := ie_mapSegs hf t
    unfold mapSegs
    repeat' (first | exact hf _ | exact ih | exact ie_ret _ | refine allEvents_bind ?_ (fun _ => ?_) | split)

theorem ie_replaceP {r : Re} {f : Mat → Prog Str} (hf : ∀ m, AllEvents C InlineEvent (f m)) (t : Str) : AllEvents C InlineEvent (replaceP C r f t) := by
  unfold replaceP Re.replaceAllM
  exact allEvents_bind (ie_mapSegs hf _) (fun _ => ie_ret _)

theorem ie_multi {f : Mat → Prog Str} (hf : ∀ m, AllEvents C InlineEvent (f m)) : ∀ l t, AllEvents C InlineEvent (multiReplaceWithOne C f l t)
  | [], _ => ie_ret _
  | _ :: l, _ => allEvents_bind (ie_replaceP hf _) (fun _ => ie_multi hf l _)

theorem spanTag_name {m n : Str} (h : spanTag m = .ok n) : n ∈ inlineNames := by
  unfold spanTag at h
  repeat' (split at h)
  all_goals first
    | (injection h with h; subst h; decide)
    | cases h

theorem ie_tag {v : Str} (h : InlineTag v) : AllEvents C InlineEvent (cacheRefP .tag v) := by
  intro w e he
  simp [cacheRefP, trace] at he
  subst he
  exact .tag h

theorem ie_fSpan {rec : Str → Prog Str} (hr : ∀ t, AllEvents C InlineEvent (rec t)) (m : Mat) : AllEvents C InlineEvent (fSpan C rec m) := by
  unfold fSpan
  cases h : spanTag (m.grp 2) with
  | error x => intro w e he; simp [Prog.ofR, trace_bind, trace, run] at he
  | ok n =>
    have hn := spanTag_name h
    change AllEvents C InlineEvent (Prog.ofR (.ok n) >>= _)
    have e : ∀ {β : Type} (f : Str → Prog β), (Prog.ofR (.ok n) >>= f) = f n := fun _ => rfl
    rw [e]
    refine allEvents_bind (ie_ofR _) (fun a => allEvents_bind (hr _) (fun c => allEvents_bind ?_ (fun _ => ie_ret _)))
    unfold storeTags
    exact allEvents_bind (ie_tag (.opens hn)) (fun _ => allEvents_bind (ie_tag (.closes hn)) (fun _ => ie_ret _))

theorem ie_spanN : ∀ n t, AllEvents C InlineEvent (spanN C n t)
  | 0, t => by intro w e he; simp [spanN, trace] at he
  | n + 1, t => by
    rw [spanN_succ]
    refine allEvents_bind (by intro w e he; simp [spanEnterP, trace] at he) (fun d => allEvents_bind ?_ (fun t =>
      allEvents_bind (by intro w e he; simp [spanLeaveP, trace] at he) (fun _ => ie_ret _)))
    split
    · exact ie_multi (ie_fSpan (ie_spanN n)) _ _
    · exact ie_ret _

theorem ie_quote (m : Mat) : AllEvents C InlineEvent (fQuotedQuote C m) := by
  unfold fQuotedQuote
  split
  · split
    · exact ie_ret _
    · intro w e he
      simp [shelveP, trace] at he
      subst he
      exact .quote _ _
  · exact ie_ofR (.error _)

theorem ie_tags (t : Str) : AllEvents C InlineEvent (retrieveTags C t) := by
  unfold retrieveTags
  repeat' (first | exact ie_ret _ | exact ie_ofR _ | exact ie_getSt | exact ie_getPat _ | refine allEvents_bind ?_ (fun _ => ?_) | dsimp only | split)

theorem ie_urls (t : Str) : AllEvents C InlineEvent (retrieveUrls C t) := by
  unfold retrieveUrls
  repeat' (first | exact ie_ret _ | exact ie_ofR _ | exact ie_getSt | exact ie_getPat _ | refine allEvents_bind ?_ (fun _ => ?_) | dsimp only | split)

end

/-- **C101.** In inline mode, the only elements that are made of a text are those of inline markup: no link, no image, no
note and no footnote is made, no number is given and no size is asked for, whatever the text and the other options. -/
theorem C101_inline_only (E : Env) (fuel : Nat) (cfg : Cfg) (text : Str) (w : World) :
    ∀ e ∈ trace ⟨E, (Setter.blockTags false).apply cfg, fuel⟩ (parseP ⟨E, (Setter.blockTags false).apply cfg, fuel⟩ text) w, InlineEvent e := by
  have key : ∀ C : Ctx, C.cfg.blockTags = false → AllEvents C InlineEvent (parseP C text) := by
    intro C h
    unfold parseP
    split
    · exact ie_ret _
    · refine allEvents_bind ?_ (fun _ => ie_ret _)
      unfold parseBody
      rw [h]
      simp only [Bool.false_eq_true, if_false]
      refine allEvents_bind (allEvents_bind (ie_replaceP ie_quote _) (fun _ => allEvents_bind (ie_spanN _ _) (fun _ => ie_ret _))) (fun t =>
        allEvents_bind ie_getSt (fun st => allEvents_bind (ie_ofR _) (fun _ => allEvents_bind (ie_tags _) (fun _ => ie_urls _))))
  exact key _ rfl w

/-- Neither the link nor the image nor the references to notes are made here; the emphasis is. -/
theorem C101_inline_only_ex : trace ⟨demoEnv, (Setter.blockTags false).apply demoCfg, 100⟩
      (parseP ⟨demoEnv, (Setter.blockTags false).apply demoCfg, 100⟩ t!"_a_ \"b\":/c !d.png! e[1] f[#g]") {} =
    [.cached .tag 1 1 t!"<em>", .cached .tag 1 2 t!"</em>"] := by
  decide +kernel

end Rustextile
