import Verif.Tokens

/-!
# What is set aside, and how it grows

Texts set aside and tags are numbered one after the other; what has been stored under a
number is never changed.
-/

namespace Rustextile

open Prog

/-- The numbers of the texts set aside have been given out, and the texts are found again. -/
def ShelfInv (uid : Str) (σ : PState) : Prop :=
  ∀ e ∈ σ.shelf, ∃ n ≤ σ.refIndex, e.1 = shelfKey uid n ∧ alLookup e.1 σ.shelf = some e.2

theorem ShelfInv.ok {uid : Str} {σ : PState} (h : ShelfInv uid σ) : ShelfOk uid σ.shelf := by
  intro e he
  obtain ⟨n, -, h1, h2⟩ := h e he
  exact ⟨n, h1, h2⟩

theorem ShelfInv.empty {uid : Str} {σ : PState} (h : σ.shelf = []) : ShelfInv uid σ := by
  intro e he; rw [h] at he; cases he

/-- What `σ` has stored is in `τ`, too. -/
def Agrees (uid : Str) (σ τ : PState) : Prop :=
  ∀ j ≤ σ.refIndex, alLookup j τ.refCache = alLookup j σ.refCache ∧
    alLookup (shelfKey uid j) τ.shelf = alLookup (shelfKey uid j) σ.shelf

theorem Agrees.refl (uid : Str) (σ : PState) : Agrees uid σ σ := fun _ _ => ⟨rfl, rfl⟩

/-- More has been stored, and nothing that had been stored was changed. -/
structure Grows (uid : Str) (σ σ' : PState) : Prop where
  depth : σ'.spanDepth = σ.spanDepth
  index : σ.refIndex ≤ σ'.refIndex
  agrees : Agrees uid σ σ'
  inv : ShelfInv uid σ → ShelfInv uid σ'
  urls : σ'.aux.urlrefs = σ.aux.urlrefs

/-- More has been stored, but no footnotes. -/
structure Grow (uid : Str) (σ σ' : PState) : Prop extends Grows uid σ σ' where
  links : σ'.linkIndex = σ.linkIndex
  foots : σ'.footnotes = σ.footnotes

theorem Grow.refl (uid : Str) (σ : PState) : Grow uid σ σ := ⟨⟨rfl, Nat.le_refl _, .refl _ _, id, rfl⟩, rfl, rfl⟩

theorem Agrees.before0 {uid : Str} {a b c : PState} (h : Agrees uid b c) (hg : Grows uid a b) : Agrees uid a c := by
  intro j hj
  have h1 := h j (Nat.le_trans hj hg.index)
  have h2 := hg.agrees j hj
  exact ⟨h1.1.trans h2.1, h1.2.trans h2.2⟩

theorem Agrees.before {uid : Str} {a b c : PState} (h : Agrees uid b c) (hg : Grow uid a b) : Agrees uid a c := h.before0 hg.toGrows

theorem Grows.trans {uid : Str} {a b c : PState} (h : Grows uid a b) (h' : Grows uid b c) : Grows uid a c :=
  ⟨h'.depth.trans h.depth, Nat.le_trans h.index h'.index, h'.agrees.before0 h, fun x => h'.inv (h.inv x), h'.urls.trans h.urls⟩

theorem Grow.trans {uid : Str} {a b c : PState} (h : Grow uid a b) (h' : Grow uid b c) : Grow uid a c :=
  ⟨h.toGrows.trans h'.toGrows, h'.links.trans h.links, h'.foots.trans h.foots⟩

theorem Grows.of_same {uid : Str} {σ σ' : PState} (h1 : σ'.spanDepth = σ.spanDepth) (h2 : σ'.refIndex = σ.refIndex)
    (h3 : σ'.refCache = σ.refCache) (h4 : σ'.shelf = σ.shelf) (h5 : σ'.aux.urlrefs = σ.aux.urlrefs) : Grows uid σ σ' :=
  ⟨h1, by omega, fun _ _ => by rw [h3, h4]; exact ⟨rfl, rfl⟩, fun h => by unfold ShelfInv; rw [h2, h4]; exact h, h5⟩

theorem Ext.grow {uid : Str} {σ σ' : PState} (h : Ext σ σ') : Grow uid σ σ' := by
  obtain ⟨k, c, rfl, h1, h2⟩ := h
  refine ⟨⟨rfl, h1, fun j hj => ⟨h2 j hj, rfl⟩, fun hi e he => ?_, rfl⟩, rfl, rfl⟩
  obtain ⟨n, hn, h3, h4⟩ := hi e he
  exact ⟨n, Nat.le_trans hn h1, h3, h4⟩

theorem mem_imInsert {α β : Type} [DecidableEq α] {k : α} {v : β} {e : α × β} : ∀ {l : List (α × β)}, e ∈ imInsert k v l →
    e = (k, v) ∨ e ∈ l
  | [], h => .inl (by simpa [imInsert] using h)
  | (a, b) :: l, h => by
    rw [imInsert] at h
    split at h
    · rename_i ha
      rcases List.mem_cons.1 h with h | h
      · exact .inl (by rw [h, ha])
      · exact .inr (List.mem_cons_of_mem _ h)
    · rcases List.mem_cons.1 h with h | h
      · exact .inr (by rw [h]; simp)
      · rcases mem_imInsert h with h | h
        · exact .inl h
        · exact .inr (List.mem_cons_of_mem _ h)

/-- A text is set aside. -/
theorem Grow.shelved (uid v : Str) (σ : PState) : Grow uid σ (σ.shelved uid v) := by
  refine ⟨⟨rfl, by simp only [PState.shelved]; omega, ?_, ?_, rfl⟩, rfl, rfl⟩
  · intro j hj
    refine ⟨rfl, ?_⟩
    simp only [PState.shelved]
    rw [alLookup_imInsert, if_neg]
    intro e
    have := shelfKey_inj e
    omega
  · intro hi e he
    simp only [PState.shelved] at he ⊢
    rcases mem_imInsert he with rfl | he
    · exact ⟨_, Nat.le_refl _, rfl, by rw [alLookup_imInsert, if_pos rfl]⟩
    · obtain ⟨n, hn, h3, h4⟩ := hi e he
      refine ⟨n, by omega, h3, ?_⟩
      rw [alLookup_imInsert, if_neg, h4]
      intro e'
      have := shelfKey_inj (h3.symm.trans e')
      omega

theorem shelved_lookup (uid v : Str) (σ : PState) :
    alLookup (shelfKey uid (σ.refIndex + 1)) (σ.shelved uid v).shelf = some v := by
  simp only [PState.shelved]
  rw [alLookup_imInsert, if_pos rfl]

end Rustextile
