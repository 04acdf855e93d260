import Verif.AnchorRun

/-!
# What links with attributes and titles stand for
-/

namespace Rustextile

open Prog

theorem anchor_infix {a : Spec.Anchor} : a.atts.source <:+: a.source ∧ ∀ t, a.title = some t → t <:+: a.source := by
  constructor
  · have : a.atts.source = a.groups.flatMap Spec.Group.source := rfl
    rw [this]
    exact ⟨['"'], a.written ++ (Spec.inParens a.title ++ ('"' :: ':' :: a.url)), by simp [Spec.Anchor.source, Spec.Anchor.inner]⟩
  · intro t ht
    exact ⟨'"' :: (a.groups.flatMap Spec.Group.source ++ (a.written ++ ['('])), ')' :: '"' :: ':' :: a.url, by
      simp [Spec.Anchor.source, Spec.Anchor.inner, ht, Spec.inParens]⟩

theorem an_clean {base : Str} (hb : Spec.PlainBase base) {a : Spec.Anchor} (hc : containsStr (uidOf base) a.source = false) (hrel : ∀ v, a.rel = some v → ':' ∉ v)
    (r : Bool) {x : Str} (hx : ':' ∉ x) : containsStr (uidOf base) (anHead r a) = false ∧ containsStr (uidOf base) (anMid r a x) = false := by
  have hne : uidOf base ≠ [] := by simp [uidOf]
  have hv : ∀ v, a.atts.cls = some v ∨ a.atts.id = some v ∨ a.atts.language = some v ∨ v ∈ a.atts.declarations → containsStr (uidOf base) v = false :=
    fun v hv => clean_of_infix hc ((att_value_infix hv).trans anchor_infix.1)
  have nc : ∀ w : Str, ':' ∉ w → containsStr (uidOf base) w = false := fun w h => containsStr_false_of_mem (c := ':') (by simp [uidOf]) h
  have hcls : ∀ v, (if r then none else a.atts.cls) = some v → containsStr (uidOf base) v = false := by
    intro v h
    cases r
    · exact hv v (.inl h)
    · cases h
  have hid : ∀ v, (if r then none else a.atts.id) = some v → containsStr (uidOf base) v = false := by
    intro v h
    cases r
    · exact hv v (.inr (.inl h))
    · cases h
  constructor
  · have h1 := clean_attr hb (k := t!"class") (by decide) hcls (rest := t!" href=") (nc _ (by decide))
    unfold anHead
    cases hh : (if r then none else a.atts.cls) with
    | none => exact nc _ (by simp [Spec.attr])
    | some v =>
      rw [hh] at h1
      refine containsStr_sep (c := ' ') (sep_uid hb (by decide)) hne (nc t!"<a" (by decide)) ?_
      exact clean_of_infix h1 (List.suffix_cons ' ' _).isInfix
  · refine containsStr_sep (a := []) (sep_uid hb (by decide)) hne (nc _ (by decide)) (clean_attr hb (by decide) hid (clean_attr hb (by decide) (fun v h => hv v (.inr (.inr (.inl h))))
      (clean_attr hb (by decide) (fun v h => nc v (hrel v h)) (clean_attr hb (by decide) ?_ (nc x hx)))))
    intro v h
    rw [anchor_style] at h
    split at h
    · cases h
    · cases h
      exact clean_join hb (nc [] (by decide)) (fun d hd => hv d (.inr (.inr (.inr hd))))

theorem anMid_end (r : Bool) (a : Spec.Anchor) (x y : Str) : anMid r a (x ++ y) = anMid r a x ++ y := by simp [anMid]

theorem anchor_rep {base : Str} (hb : Spec.PlainBase base) {a : Spec.Anchor} (hc : containsStr (uidOf base) a.source = false) (hrel : ∀ v, a.rel = some v → ':' ∉ v)
    (htx : ':' ∉ a.text) (r : Bool) {σ τ : PState}
    (ha : Agrees (uidOf base) (anShelved (uidOf base) r σ a) τ) (hi : (anShelved (uidOf base) r σ a).refIndex < 2 ^ 32) {x h : Str}
    (hr : RepK (uidOf base) τ 2 (fun _ => True) x h) :
    RepK (uidOf base) τ 2 (fun _ => True) (shelfKey (uidOf base) ((anTitled (uidOf base) r σ a).refIndex + 1) ++ x) (a.html r ++ h) := by
  have hne : uidOf base ≠ [] := by simp [uidOf]
  have hix := anTitled_index (uidOf base) r σ a
  rw [anShelved_index] at hi
  have hlook : alLookup (shelfKey (uidOf base) ((anTitled (uidOf base) r σ a).refIndex + 1)) τ.shelf = some (anVal (uidOf base) r σ a) := by
    rw [(ha ((anTitled (uidOf base) r σ a).refIndex + 1) (Nat.le_refl _)).2]
    exact shelved_lookup _ _ _
  have hcache : alLookup (σ.refIndex + 1) τ.refCache = some (Spec.escape true a.href) := by
    rw [(ha (σ.refIndex + 1) (by rw [anShelved_index]; omega)).1]
    simp only [anShelved, anTitled]
    cases a.title <;> simp [PState.shelved, PState.cached, alLookup_imInsert]
  have s1 : Sealed (uidOf base) (anHead r a) := by
    refine ⟨⟨'<', _, rfl, by decide⟩, ⟨t!"<a" ++ (Spec.attr t!"class" (if r then none else a.atts.cls) ++ t!" href"), '=', by simp [anHead], by decide⟩,
      (an_clean hb hc hrel r (x := []) (by decide)).1⟩
  have hrep : RepK (uidOf base) τ 1 (fun _ => True) (anVal (uidOf base) r σ a) (a.html r) := by
    have hend : RepK (uidOf base) τ 1 (fun _ => True) (t!">" ++ (a.text ++ t!"</a>")) (t!">" ++ (a.text ++ t!"</a>")) := by
      have := (RepK.nil (uid := uidOf base) (σ := τ) (d := 1) (P := fun _ => True)).text (w := t!">" ++ (a.text ++ t!"</a>")) (by simp [htx])
      simpa using this
    rw [anchor_html]
    unfold anVal anTag
    cases ht : a.title with
    | none =>
      have s2 : Sealed (uidOf base) (anMid r a t!">") :=
        ⟨⟨'"', _, rfl, by decide⟩, ⟨anMid r a [], '>', by rw [← anMid_end]; rfl, by decide⟩, (an_clean hb hc hrel r (by decide)).2⟩
      have hend' : RepK (uidOf base) τ 1 (fun _ => True) (a.text ++ t!"</a>") (a.text ++ t!"</a>") := by
        have := (RepK.nil (uid := uidOf base) (σ := τ) (d := 1) (P := fun _ => True)).text (w := a.text ++ t!"</a>") (by simp [htx])
        simpa using this
      have := RepK.chunk s1 (RepK.url (n := σ.refIndex + 1) (o := Spec.escape true a.href) (by omega) hcache (RepK.chunk s2 hend'))
      have e : ∀ y, anMid r a (Spec.attr t!"title" none ++ (t!">" ++ y)) = anMid r a t!">" ++ y := fun y => by rw [← anMid_end]; rfl
      simp only [Option.map_none, e]
      simpa using this
    | some t =>
      have s2 : Sealed (uidOf base) (anMid r a t!" title=") :=
        ⟨⟨'"', _, rfl, by decide⟩, ⟨anMid r a t!" title", '=', by rw [← anMid_end]; rfl, by decide⟩, (an_clean hb hc hrel r (by decide)).2⟩
      have hct : containsStr (uidOf base) (Spec.titleValue r t) = false := clean_title hb (clean_of_infix hc (anchor_infix.2 t ht)) r
      have hnil : containsStr (uidOf base) [] = false := containsStr_false_of_mem (c := ':') (by simp [uidOf]) (by simp)
      have s3 : Sealed (uidOf base) (t!"\"" ++ (Spec.titleValue r t ++ t!"\"")) := by
        refine ⟨⟨'"', _, rfl, by decide⟩, ⟨'"' :: Spec.titleValue r t, '"', by simp, by decide⟩, ?_⟩
        have := containsStr_sep (a := []) (c := '"') (sep_uid hb (by decide)) hne hnil (containsStr_sep (c := '"') (sep_uid hb (by decide)) hne hct hnil)
        simpa using this
      have hk : alLookup (shelfKey (uidOf base) (σ.refIndex + 2)) τ.shelf = some (Spec.titleValue r t) := by
        have e : (anTitled (uidOf base) r σ a).refIndex = σ.refIndex + 2 := by simp [anTitled, ht, PState.shelved, PState.cached]
        rw [(ha (σ.refIndex + 2) (by rw [anShelved_index]; omega)).2]
        have hg := (Grow.shelved (uidOf base) (anVal (uidOf base) r σ a) (anTitled (uidOf base) r σ a))
        have hag := hg.agrees (σ.refIndex + 2) (by omega)
        rw [show anShelved (uidOf base) r σ a = (anTitled (uidOf base) r σ a).shelved (uidOf base) (anVal (uidOf base) r σ a) from rfl, hag.2]
        simp only [anTitled, ht]
        exact shelved_lookup (uidOf base) (Spec.titleValue r t) (σ.cached (Spec.escape true a.href))
      have hv0 : RepK (uidOf base) τ 0 (fun _ => True) (t!"\"" ++ (Spec.titleValue r t ++ t!"\"")) (t!"\"" ++ (Spec.titleValue r t ++ t!"\"")) := by
        have := RepK.chunk (d := 0) (P := fun _ => True) (σ := τ) s3 RepK.nil
        simpa using this
      have k1 := RepK.key (uid := uidOf base) (a := t!"\"") (z := t!"\"") (d := 1) (e := 0) (P := fun _ => True) (n := σ.refIndex + 2) (by omega) (fun _ => trivial) hk (by decide) (by decide) hv0 hend
      have := RepK.chunk s1 (RepK.url (n := σ.refIndex + 1) (o := Spec.escape true a.href) (by omega) hcache (RepK.chunk s2 k1))
      have e : ∀ v y, anMid r a (Spec.attr t!"title" (some v) ++ y) = anMid r a t!" title=" ++ (t!"\"" ++ (v ++ (t!"\"" ++ y))) := fun v y => by
        rw [← anMid_end]; simp [Spec.attr]
      simp only [Option.map_some, e]
      simpa using this
  exact RepK.key (a := []) (z := []) (d := 2) (e := 1) (by omega) (fun _ => trivial) hlook (by simp) (by simp) (by simpa using hrep) hr

end Rustextile
