import Verif.SpecLists
import Verif.Rendered

/-!
# The loop over the items of a list

For items that come from a tree, the lines produced by the loop are those of the
rendered tree.
-/

namespace Rustextile

open Prog

/-! ## Numbers -/

theorem natDigitsAux_eq : ∀ (f n : Nat) (acc : Str), natDigitsAux f n acc = Nat.toDigitsCore 10 f n acc
  | 0, _, _ => rfl
  | f + 1, n, acc => by
    have h : ∀ d < 10, Nat.digitChar d = Char.ofNat (48 + d) := by decide
    rw [natDigitsAux, Nat.toDigitsCore, h _ (Nat.mod_lt _ (by decide))]
    simp only [natDigitsAux_eq f]

theorem natStr_numeral (n : Nat) : Spec.numeral n = natStr n := (natDigitsAux_eq (n + 1) n []).symm

/-! ## Elements of the loop -/

/-- The marks of an item. -/
structure Marker (m : Str) : Prop where
  ne : m ≠ []
  chars : ∀ c ∈ m, c = '*' ∨ c = '#'

/-- An item. -/
def mkItem (m s t : Str) : ListItem := { tl := m, st := s, atts := [], content := t }

/-- The items of a tree. -/
def flat (m s : Str) : Spec.Items → List ListItem
  | .done => []
  | .item t k sub next => mkItem m s t :: (flat (m ++ [k.mark]) k.suffix sub ++ flat m [] next)

theorem Marker.snoc {m : Str} (h : Marker m) (k : Spec.ListKind) : Marker (m ++ [k.mark]) := by
  refine ⟨by simp, fun c hc => ?_⟩
  rcases List.mem_append.1 hc with hc | hc
  · exact h.chars c hc
  · simp at hc; subst hc
    unfold Spec.ListKind.mark
    split <;> simp

theorem Marker.notin {m : Str} (h : Marker m) {d : Char} (hd : d ≠ '*') (hd' : d ≠ '#') : d ∉ m := by
  intro hm
  rcases h.chars d hm with h | h
  · exact hd h
  · exact hd' h

theorem listType_marker {U : Uni} {m : Str} (h : Marker m) :
    listType U m = if endsWithChar m '#' then t!"ol" else t!"ul" := by
  unfold listType
  have hs : LIST_START_RE = .seq .bot (.grp 1 (.seq (.set false [.chr '#', .chr '*']) (.star true (.set false [.chr '#', .chr '*'])))) := rfl
  obtain ⟨x, xs, e⟩ := List.exists_cons_of_ne_nil h.ne
  have hx : ∀ c ∈ m, evalSet U false [.chr '#', .chr '*'] c = true := by
    intro c hc
    rcases h.chars c hc with rfl | rfl <;> simp [evalSet, Item.eval_chr]
  obtain ⟨l, hl⟩ := star_greedy_head (U := U) (n := false) (it := [.chr '#', .chr '*']) (s := []) (w := xs) (rest := []) (pre := [x])
    (fun c hc => hx c (by rw [e]; simp [hc])) (by simp)
  have hm : LIST_START_RE.matchAt U ⟨[], m⟩ = some (⟨m.reverse, []⟩, [(1, m)]) := by
    have hx0 := hx x (by rw [e]; simp)
    simp only [List.append_nil] at hl
    have hb : between ⟨[], x :: xs⟩ ⟨xs.reverse ++ [x], []⟩ = x :: xs := by simp [between]
    rw [Re.matchAt_eq, hs, e]
    simp only [Re.all, hx0, if_true, List.flatMap_cons, List.flatMap_nil, List.append_nil, List.isEmpty_nil]
    simp only [Re.all] at hl
    rw [hl]
    simp [hb]
  rw [Re.captures, Re.search_hit hm]
  simp [Mat.grp, Mat.get?, alLookup]

theorem listType_kind {U : Uni} {m : Str} (h : Marker m) {k : Spec.ListKind} (hk : m.getLast? = some k.mark) :
    listType U m = k.name := by
  rw [listType_marker h]
  unfold endsWithChar Spec.ListKind.name
  rw [hk]
  unfold Spec.ListKind.mark
  cases k.ordered <;> rfl

theorem itemTag_marker {m : Str} (h : Marker m) : itemTag m = t!"li" := by
  unfold itemTag
  rw [if_neg (by simpa using h.notin (by decide) (by decide)), if_neg (by simpa using h.notin (by decide) (by decide))]

/-- The counters of the parser. -/
def Num (N : Spec.Numbers) (σ : PState) : Prop := ∀ k, (alLookup k σ.aux.olStarts).getD 1 = N k

/-- Only the counters change. -/
def Renum (σ σ' : PState) : Prop := ∃ o, σ' = { σ with aux := { σ.aux with olStarts := o } }

theorem Renum.refl (σ : PState) : Renum σ σ := ⟨_, rfl⟩

theorem Renum.trans {a b c : PState} (h : Renum a b) (h' : Renum b c) : Renum a c := by
  obtain ⟨o, rfl⟩ := h
  obtain ⟨o', rfl⟩ := h'
  exact ⟨o', rfl⟩

/-- The part of the loop that numbers an item. -/
def numProg (C : Ctx) (prev : Option ListItem) (item : ListItem) (a : HtmlAttrs) : Prog HtmlAttrs :=
  if listType C.U item.tl = t!"ol" then do
    let st ← getStP
    let old := (alLookup item.tl st.aux.olStarts).getD 1
    let isFirst := match prev with | some p => decide (item.level > p.level) | none => true
    let r := olStart item isFirst (!(trim item.content).isEmpty) old a
    setAuxP (fun x => { x with olStarts := imInsert item.tl r.2 x.olStarts })
    pure r.1
  else pure a

theorem listLoop_cons (C : Ctx) (prev : Option ListItem) (L : List (Str × Nat)) (m s t : Str) (rest : List ListItem) :
    listLoop C prev L (mkItem m s t :: rest) = (do
      let a ← numProg C prev (mkItem m s t) []
      let l := itemLine C.U prev rest.head? (mkItem m s t) (HtmlAttrs.toStr a) L
      let r ← listLoop C (some (mkItem m s t)) l.2 rest
      pure (l.1 :: r)) := by
  conv => lhs; unfold listLoop
  simp only [mkItem]
  rw [parseAttrs_nil, pure_bind]
  rfl

theorem Runs.setAux {C : Ctx} (f : Aux → Aux) (σ : PState) : Runs C (setAuxP f) () σ { σ with aux := f σ.aux } := by
  intro w hw e
  subst e
  exact ⟨_, rfl, rfl, hw⟩

theorem Runs.getSt {C : Ctx} {β : Type} {f : PState → Prog β} {b : β} {σ σ' : PState} (h : Runs C (f σ) b σ σ') :
    Runs C (getStP >>= f) b σ σ' := by
  intro w hw e
  subst e
  exact h w hw rfl

/-- Is this the first item of a list? -/
def isFirst (prev : Option ListItem) (m : Str) : Bool :=
  match prev with
  | some p => decide (m.length > p.level)
  | none => true

/-- A counter is set. -/
def setNum (σ : PState) (m : Str) (n : Nat) : PState :=
  { σ with aux := { σ.aux with olStarts := imInsert m n σ.aux.olStarts } }

theorem num_ordered {C : Ctx} {prev : Option ListItem} {m s t : Str} {a : HtmlAttrs} (hl : listType C.U m = t!"ol") (ht : trim t = t) (hne : t ≠ []) {σ : PState} :
    ∃ σ1, Runs C (numProg C prev (mkItem m s t) a) (olStart (mkItem m s t) (isFirst prev m) true ((alLookup m σ.aux.olStarts).getD 1) a).1 σ σ1 ∧
      σ1 = setNum σ m (olStart (mkItem m s t) (isFirst prev m) true ((alLookup m σ.aux.olStarts).getD 1) a).2 := by
  have hsh : (!(trim (mkItem m s t).content).isEmpty) = true := by
    simp only [mkItem, ht]
    cases t with
    | nil => exact absurd rfl hne
    | cons => rfl
  refine ⟨_, ?_, rfl⟩
  unfold numProg
  rw [if_pos (show listType C.U (mkItem m s t).tl = t!"ol" from hl), hsh]
  refine Runs.getSt ?_
  exact Runs.bind (Runs.setAux _ _) (Runs.pure _ _)

theorem Num.insert {N : Spec.Numbers} {σ : PState} (h : Num N σ) (m : Str) (n : Nat) :
    Num (N.set m n) (setNum σ m n) := by
  intro k
  simp only [setNum, alLookup_imInsert, Spec.Numbers.set]
  split
  · rfl
  · exact h k

theorem numbers_set_set (N : Spec.Numbers) (m : Str) (a b : Nat) : (N.set m a).set m b = N.set m b := by
  funext k
  simp only [Spec.Numbers.set]
  split <;> rfl

theorem numbers_set_eq (N : Spec.Numbers) (m : Str) (a : Nat) : N.set m a m = a := by simp [Spec.Numbers.set]

theorem parseUsize_natStr {n : Nat} (h : n < 2 ^ 64) : parseUsize (natStr n) = some n := by
  simp [parseUsize, parseDigits_natStr, h]

theorem enc_digits : ∀ {t : Str}, (∀ c ∈ t, isDigitC c = true) → encodeHtml t false true = t
  | [], _ => rfl
  | c :: t, h => by
    have ih := enc_digits (t := t) (fun d hd => h d (List.mem_cons_of_mem _ hd))
    have hc : 48 ≤ c.toNat ∧ c.toNat ≤ 57 := by simpa [isDigitC] using h c (by simp)
    rw [encodeHtml] at ih ⊢
    rw [List.flatMap_cons, ih]
    have e : ∀ n < 128, 48 ≤ n → n ≤ 57 → encChar false true (Char.ofNat n) = [Char.ofNat n] := by decide
    have := e c.toNat (by omega) hc.1 hc.2
    rw [Char.ofNat_toNat] at this
    rw [this]; rfl

theorem start_attr (n : Nat) : HtmlAttrs.toStr (HtmlAttrs.insert t!"start" (natStr n) []) = t!" start=\"" ++ natStr n ++ t!"\"" := by
  have hq : '"' ∉ natStr n := by
    intro h; have := natStr_digits n _ h; revert this; decide
  simp [HtmlAttrs.insert, btInsert, HtmlAttrs.toStr, attrText, quoteattr, enc_digits (natStr_digits n), hq]

/-- Numbering the first item of a list. -/
theorem num_first {C : Ctx} {prev : Option ListItem} {m t : Str} (hm : Marker m) {k : Spec.ListKind} (hk : m.getLast? = some k.mark)
    (hok : k.Ok) (hp : isFirst prev m = true) (ht : trim t = t) (hne : t ≠ []) {σ : PState} {N : Spec.Numbers} (hN : Num N σ) :
    ∃ a σ1, Runs C (numProg C prev (mkItem m k.suffix t) []) a σ σ1 ∧ Renum σ σ1 ∧
      HtmlAttrs.toStr a = k.attr (k.start m N m) ∧
      Num (if k.ordered then (k.start m N).set m (k.start m N m + 1) else k.start m N) σ1 := by
  cases k with
  | bullets =>
    refine ⟨[], σ, ?_, Renum.refl _, rfl, by simpa [Spec.ListKind.ordered, Spec.ListKind.start] using hN⟩
    unfold numProg
    rw [if_neg (by
      rw [show (mkItem m (Spec.ListKind.suffix .bullets) t).tl = m from rfl, listType_kind hm hk]
      decide)]
    exact Runs.pure _ _
  | numbers =>
    obtain ⟨σ1, h1, rfl⟩ := num_ordered (C := C) (prev := prev) (s := Spec.ListKind.suffix .numbers) (a := []) (listType_kind hm hk) ht hne (σ := σ)
    refine ⟨_, _, h1, ⟨_, rfl⟩, ?_, ?_⟩
    · simp [olStart, mkItem, Spec.ListKind.suffix, Spec.ListKind.attr, HtmlAttrs.toStr]
    · have := hN.insert m 2
      simpa [olStart, mkItem, Spec.ListKind.suffix, hp, Spec.ListKind.start, Spec.ListKind.ordered, numbers_set_set, numbers_set_eq] using this
  | numbersFrom n =>
    obtain ⟨σ1, h1, rfl⟩ := num_ordered (C := C) (prev := prev) (s := Spec.ListKind.suffix (.numbersFrom n)) (a := []) (listType_kind hm hk) ht hne (σ := σ)
    have hs : Spec.ListKind.suffix (.numbersFrom n) = natStr n := natStr_numeral n
    have hn : n < 2 ^ 64 := by have : n < 2 ^ 63 := hok; omega
    have h_ : natStr n ≠ t!"_" := by
      intro e
      have := natStr_digits n '_' (by rw [e]; simp)
      revert this; decide
    have hv : olStart (mkItem m (natStr n) t) true true ((alLookup m σ.aux.olStarts).getD 1) [] =
        (HtmlAttrs.insert t!"start" (natStr n) [], n + 1) := by
      simp [olStart, mkItem, natStr_ne_nil, h_, parseUsize_natStr hn]
    rw [hs, hp, hv] at h1
    rw [hs]
    refine ⟨_, _, h1, ⟨_, rfl⟩, ?_, ?_⟩
    · simp [start_attr, Spec.ListKind.attr, Spec.ListKind.start, numbers_set_eq, natStr_numeral]
    · have := hN.insert m (n + 1)
      simpa [Spec.ListKind.start, Spec.ListKind.ordered, numbers_set_set, numbers_set_eq] using this
  | numbersOn =>
    obtain ⟨σ1, h1, rfl⟩ := num_ordered (C := C) (prev := prev) (s := Spec.ListKind.suffix .numbersOn) (a := []) (listType_kind hm hk) ht hne (σ := σ)
    have hv : olStart (mkItem m (Spec.ListKind.suffix .numbersOn) t) true true ((alLookup m σ.aux.olStarts).getD 1) [] =
        (HtmlAttrs.insert t!"start" (natStr (N m)) [], N m + 1) := by
      simp [olStart, mkItem, Spec.ListKind.suffix, hN m]
    rw [hp, hv] at h1
    refine ⟨_, _, h1, ⟨_, rfl⟩, ?_, ?_⟩
    · simp [start_attr, Spec.ListKind.attr, Spec.ListKind.start, natStr_numeral]
    · have := hN.insert m (N m + 1)
      simpa [Spec.ListKind.start, Spec.ListKind.ordered] using this

/-- Numbering another item. -/
theorem num_next {C : Ctx} {prev : Option ListItem} {m t : Str} (hm : Marker m) {k : Spec.ListKind} (hk : m.getLast? = some k.mark)
    (hp : isFirst prev m = false) (ht : trim t = t) (hne : t ≠ []) {σ : PState} {N : Spec.Numbers} (hN : Num N σ) :
    ∃ σ1, Runs C (numProg C prev (mkItem m [] t) []) [] σ σ1 ∧ Renum σ σ1 ∧
      Num (if k.ordered then N.set m (N m + 1) else N) σ1 := by
  cases hko : k.ordered with
  | false =>
    refine ⟨σ, ?_, Renum.refl _, by simpa using hN⟩
    unfold numProg
    rw [if_neg (by
      rw [show (mkItem m [] t).tl = m from rfl, listType_kind hm hk, Spec.ListKind.name, hko]
      decide)]
    exact Runs.pure _ _
  | true =>
    obtain ⟨σ1, h1, rfl⟩ := num_ordered (C := C) (prev := prev) (s := []) (a := [])
      (by rw [listType_kind hm hk, Spec.ListKind.name, hko]; rfl) ht hne (σ := σ)
    have hv : olStart (mkItem m [] t) false true ((alLookup m σ.aux.olStarts).getD 1) [] = ([], N m + 1) := by
      simp [olStart, mkItem, hN m]
    rw [hp, hv] at h1
    exact ⟨_, h1, ⟨_, rfl⟩, by simpa using hN.insert m (N m + 1)⟩

/-! ## Lines -/

/-- The closing tags after an item. -/
def closing (U : Uni) (d : Nat) (next : Option ListItem) (L : List (Str × Nat)) : Str :=
  closeLists U (Spec.tabs (d - 1)) t!"li" next L.reverse

/-- The tag of an item, on a line of its own. -/
def liText (m t : Str) : Str := t!"\n" ++ Spec.tabs m.length ++ t!"<li>" ++ t

def closeLi (b : Bool) : Str := if b then t!"</li>" else []

/-- The opening tag of a list. -/
def openList (k : Spec.ListKind) (m : Str) (n : Nat) : Str :=
  Spec.tabs (m.length - 1) ++ t!"<" ++ k.name ++ k.attr n ++ t!">"

theorem tabs_snoc {m : Str} (h : Marker m) : Spec.tabs (m.length - 1) ++ t!"\t" = Spec.tabs m.length := by
  have : m.length = (m.length - 1) + 1 := by
    have := List.length_pos_iff.2 h.ne; omega
  rw [this, Spec.tabs, Spec.tabs, List.replicate_succ']
  rfl

/-- The line of an item that is no definition. -/
theorem itemLine_eq {U : Uni} {prev next : Option ListItem} {item : ListItem} {atts : Str} {L : List (Str × Nat)}
    (h : item.tl.contains ':' = false) : itemLine U prev next item atts L =
    ((if (!(alLookup item.tl L).isSome) then
        List.replicate (item.level - 1) '\t' ++ t!"<" ++ listType U item.tl ++ atts ++ t!">" ++
          (if (!(trim item.content).isEmpty) then
            t!"\n" ++ List.replicate (item.level - 1) '\t' ++ t!"\t<" ++ itemTag item.tl ++ t!">" ++ trim item.content else [])
      else if (!(trim item.content).isEmpty) then
        List.replicate (item.level - 1) '\t' ++ t!"\t<" ++ itemTag item.tl ++ atts ++ t!">" ++ trim item.content
      else []) ++
      (if ((!(trim item.content).isEmpty) && endsItem next item) then t!"</" ++ itemTag item.tl ++ t!">" else []) ++
      closeLists U (List.replicate (item.level - 1) '\t') (itemTag item.tl) next
        (if (alLookup item.tl L).isSome then L else imInsert item.tl 1 L).reverse,
      keepLists next (if (alLookup item.tl L).isSome then L else imInsert item.tl 1 L)) := by
  unfold itemLine
  cases prev with
  | none => rfl
  | some p => simp only [h, Bool.and_false, Bool.false_eq_true, if_false]

theorem line_first {U : Uni} {prev next : Option ListItem} {m s t atts : Str} {L : List (Str × Nat)} (hm : Marker m)
    {k : Spec.ListKind} (hk : m.getLast? = some k.mark) (ht : trim t = t) (hne : t ≠ []) (hL : ∀ p ∈ L, p.1 ≠ m) :
    itemLine U prev next (mkItem m s t) atts L =
      (Spec.tabs (m.length - 1) ++ t!"<" ++ k.name ++ atts ++ t!">" ++ liText m t ++ closeLi (endsItem next (mkItem m s t)) ++
        closing U m.length next (L ++ [(m, 1)]), keepLists next (L ++ [(m, 1)])) := by
  have hc : (mkItem m s t).tl.contains ':' = false := by
    simpa [mkItem] using hm.notin (d := ':') (by decide) (by decide)
  have hte : t.isEmpty = false := by simpa using hne
  rw [itemLine_eq hc]
  simp only [show (mkItem m s t).tl = m from rfl, show trim (mkItem m s t).content = t from ht, itemTag_marker hm, listType_kind hm hk,
    show (mkItem m s t).level = m.length from rfl, alLookup_none_of hL, hte, imInsert_fresh hL]
  simp only [Option.isSome_none, Bool.not_false, if_true, Bool.true_and, Bool.false_eq_true, if_false]
  have ht := tabs_snoc hm
  unfold Spec.tabs at ht
  simp only [Spec.tabs, liText, closing, closeLi, ← ht]
  simp

theorem line_next {U : Uni} {prev next : Option ListItem} {m s t : Str} {L : List (Str × Nat)} (hm : Marker m)
    (ht : trim t = t) (hne : t ≠ []) (hL : (alLookup m L).isSome = true) :
    t!"\n" ++ (itemLine U prev next (mkItem m s t) [] L).1 =
      liText m t ++ closeLi (endsItem next (mkItem m s t)) ++ closing U m.length next L ∧
    (itemLine U prev next (mkItem m s t) [] L).2 = keepLists next L := by
  have hc : (mkItem m s t).tl.contains ':' = false := by
    simpa [mkItem] using hm.notin (d := ':') (by decide) (by decide)
  have hte : t.isEmpty = false := by simpa using hne
  rw [itemLine_eq hc]
  simp only [show (mkItem m s t).tl = m from rfl, show trim (mkItem m s t).content = t from ht, itemTag_marker hm,
    show (mkItem m s t).level = m.length from rfl, hL, hte]
  simp only [Bool.not_false, if_true, Bool.true_and, Bool.false_eq_true, if_false, Bool.not_true]
  have ht := tabs_snoc hm
  unfold Spec.tabs at ht
  simp only [Spec.tabs, liText, closing, closeLi, ← ht]
  simp

/-! ## Open lists -/

/-- The lists that are open at some point: none is deeper than `d`. -/
def Shallow (d : Nat) (L : List (Str × Nat)) : Prop := ∀ p ∈ L, p.1.length ≤ d ∧ p.2 = 1

/-- The next item is not deeper than `d`. -/
def NextAt (d : Nat) (next : Option ListItem) : Prop := ∀ i, next = some i → i.level ≤ d

theorem closing_none {U : Uni} {d : Nat} {i : ListItem} {L : List (Str × Nat)} (h : Shallow i.level L) :
    closing U d (some i) L = [] ∧ keepLists (some i) L = L := by
  have hl : ∀ p ∈ L, leavesList (some i) p.1 = false := by
    intro p hp
    have := (h p hp).1
    simp [leavesList]; omega
  refine ⟨?_, ?_⟩
  · unfold closing
    generalize hR : L.reverse = R
    have hl' : ∀ p ∈ R, leavesList (some i) p.1 = false := by
      intro p hp; exact hl p (by rw [← hR] at hp; simpa using hp)
    clear hR
    induction R with
    | nil => rfl
    | cons p R ih =>
      obtain ⟨a, b⟩ := p
      rw [closeLists, hl' (a, b) (by simp), ih (fun q hq => hl' q (List.mem_cons_of_mem _ hq))]
      rfl
  · unfold keepLists
    rw [List.filter_eq_self]
    intro p hp
    rw [hl p hp]; rfl

theorem leaves_of_next {d : Nat} {next : Option ListItem} (h : NextAt d next) {m : Str} (hm : d < m.length) : leavesList next m = true := by
  cases next with
  | none => rfl
  | some i => have := h i rfl; simp [leavesList]; omega

theorem keep_snoc {d : Nat} {next : Option ListItem} (h : NextAt d next) {m : Str} (hm : d < m.length) (L : List (Str × Nat)) :
    keepLists next (L ++ [(m, 1)]) = keepLists next L := by
  simp [keepLists, leaves_of_next h hm]

theorem closing_snoc {U : Uni} {d e : Nat} {next : Option ListItem} (h : NextAt e next) {m : Str} (hm : e < m.length) (L : List (Str × Nat)) :
    closing U d next (L ++ [(m, 1)]) = t!"\n" ++ Spec.tabs (d - 1) ++ t!"</" ++ listType U m ++ t!">" ++
      (if m.length > 1 then t!"</li>" else []) ++ closing U d next L := by
  unfold closing
  rw [List.reverse_append]
  simp only [List.reverse_cons, List.reverse_nil, List.nil_append, List.cons_append]
  rw [closeLists, leaves_of_next h hm]
  simp

/-! ## The loop -/

/-- The lines, each after a newline. -/
def linesText (ls : List Str) : Str := ls.flatMap (fun l => t!"\n" ++ l)

theorem linesText_append (a b : List Str) : linesText (a ++ b) = linesText a ++ linesText b := by simp [linesText]

/-- Texts of items as the loop wants them. -/
def Texts : Spec.Items → Prop
  | .done => True
  | .item t k sub next => (trim t = t ∧ t ≠ []) ∧ k.Ok ∧ Texts sub ∧ Texts next

theorem flat_head {m s : Str} {t : Spec.Items} (h : t ≠ .done) (rest : List ListItem) :
    ∃ i, (flat m s t ++ rest).head? = some i ∧ i.level = m.length := by
  cases t with
  | done => exact absurd rfl h
  | item t k sub next => exact ⟨_, rfl, rfl⟩

theorem lookup_snoc (m : Str) : ∀ (L : List (Str × Nat)), (alLookup m (L ++ [(m, 1)])).isSome = true
  | [] => by simp [alLookup]
  | (a, b) :: L => by
    simp only [List.cons_append, alLookup]
    split
    · rfl
    · exact lookup_snoc m L

theorem loop_items (C : Ctx) : ∀ (t : Spec.Items), t ≠ .done → Texts t → ∀ {m : Str} {k : Spec.ListKind}, Marker m →
    m.getLast? = some k.mark → ∀ (first : Bool) (prev : Option ListItem) (L : List (Str × Nat)) (rest : List ListItem)
      (σ : PState) (N : Spec.Numbers), Num N σ → isFirst prev m = first → (first = true → k.Ok) →
      Shallow (if first then m.length - 1 else m.length) L → (first = false → (alLookup m L).isSome = true) →
      NextAt (m.length - 1) rest.head? →
    ∃ ls p σ', m.length ≤ p.level ∧ Renum σ σ' ∧
      Num (t.html k.ordered m (if first then k.start m N else N)).2 σ' ∧
      (∀ lr σ2, Runs C (listLoop C (some p) (keepLists rest.head? L) rest) lr σ' σ2 →
        Runs C (listLoop C prev L (flat m (if first then k.suffix else []) t ++ rest)) (ls ++ lr) σ σ2) ∧
      linesText ls = (if first then t!"\n" ++ openList k m (k.start m N m) else []) ++
        (t.html k.ordered m (if first then k.start m N else N)).1 ++
        closing C.U (t.lastDepth m.length m.length) rest.head? (if first then L ++ [(m, 1)] else L) := by
  intro t
  induction t with
  | done => intro h; exact absurd rfl h
  | item t k' sub next ihs ihn =>
    intro _ hT m k hm hk first prev L rest σ N hN hp hok hL hin hrest
    obtain ⟨⟨ht, hne⟩, hk', hTs, hTn⟩ := hT
    have hpos : 0 < m.length := List.length_pos_iff.2 hm.ne
    -- the first line
    have step : ∃ l σ1, Renum σ σ1 ∧ Num (if k.ordered then (if first then k.start m N else N).set m
          ((if first then k.start m N else N) m + 1) else (if first then k.start m N else N)) σ1 ∧
        (t!"\n" ++ l = (if first then t!"\n" ++ openList k m (k.start m N m) else []) ++ liText m t ++
          closeLi (endsItem ((flat (m ++ [k'.mark]) k'.suffix sub ++ (flat m [] next ++ rest)).head?) (mkItem m [] t)) ++
          closing C.U m.length ((flat (m ++ [k'.mark]) k'.suffix sub ++ (flat m [] next ++ rest)).head?)
            (if first then L ++ [(m, 1)] else L)) ∧
        ∀ lr σ2, Runs C (listLoop C (some (mkItem m (if first then k.suffix else []) t))
            (keepLists ((flat (m ++ [k'.mark]) k'.suffix sub ++ (flat m [] next ++ rest)).head?) (if first then L ++ [(m, 1)] else L))
            (flat (m ++ [k'.mark]) k'.suffix sub ++ (flat m [] next ++ rest))) lr σ1 σ2 →
          Runs C (listLoop C prev L (flat m (if first then k.suffix else []) (.item t k' sub next) ++ rest)) (l :: lr) σ σ2 := by
      have hf : ∀ s, flat m s (.item t k' sub next) ++ rest =
          mkItem m s t :: (flat (m ++ [k'.mark]) k'.suffix sub ++ (flat m [] next ++ rest)) := fun s => by simp [flat]
      rw [hf]
      generalize hR : flat (m ++ [k'.mark]) k'.suffix sub ++ (flat m [] next ++ rest) = R
      cases first with
      | true =>
        simp only [if_true] at hL hp ⊢
        obtain ⟨a, σ1, h1, h2, h3, h4⟩ := num_first (C := C) (t := t) hm hk (hok rfl) hp ht hne hN
        have hnm : ∀ p ∈ L, p.1 ≠ m := by
          rintro p hpm rfl
          have := (hL p hpm).1; omega
        refine ⟨(itemLine C.U prev R.head? (mkItem m k.suffix t) (HtmlAttrs.toStr a) L).1, σ1, h2, h4, ?_, ?_⟩
        · rw [line_first hm hk ht hne hnm, h3]
          rw [show endsItem R.head? (mkItem m k.suffix t) = endsItem R.head? (mkItem m [] t) from rfl]
          simp [openList]
        · intro lr σ2 hr
          rw [listLoop_cons]
          refine h1.bind ?_
          rw [line_first hm hk ht hne hnm] at *
          exact hr.bind (Runs.pure _ _)
      | false =>
        simp only [Bool.false_eq_true, if_false, List.nil_append] at hL hp ⊢
        obtain ⟨σ1, h1, h2, h4⟩ := num_next (C := C) (t := t) hm hk hp ht hne hN
        obtain ⟨e1, e2⟩ := line_next (U := C.U) (prev := prev) (next := R.head?) (s := []) hm ht hne (hin rfl)
        refine ⟨_, σ1, h2, h4, e1, ?_⟩
        intro lr σ2 hr
        rw [listLoop_cons]
        refine h1.bind ?_
        rw [show HtmlAttrs.toStr [] = [] from rfl]
        dsimp only
        rw [e2]
        exact hr.bind (Runs.pure _ _)
    generalize hL2 : (if first then L ++ [(m, 1)] else L) = L2 at step
    have hS2 : Shallow m.length L2 := by
      rw [← hL2]
      intro p hpm
      cases first with
      | true =>
        simp only [if_true] at hpm hL
        rcases List.mem_append.1 hpm with h | h
        · have := hL p h; exact ⟨by omega, this.2⟩
        · simp at h; subst h; exact ⟨Nat.le_refl _, rfl⟩
      | false => exact hL p (by simpa using hpm)
    have hin2 : (alLookup m L2).isSome = true := by
      rw [← hL2]
      cases first with
      | true => exact lookup_snoc m L
      | false => exact hin rfl
    have hkeep : keepLists rest.head? L2 = keepLists rest.head? L := by
      rw [← hL2]
      cases first with
      | true => exact keep_snoc hrest (by omega) L
      | false => rfl
    generalize hN0 : (if first then k.start m N else N) = N0 at step ⊢
    generalize hN1 : (if k.ordered then N0.set m (N0 m + 1) else N0) = N1 at step
    -- the list below
    have step2 : ∀ R, R = flat m [] next ++ rest → NextAt m.length R.head? → ∃ ls p σ1, m.length ≤ p.level ∧ Renum σ σ1 ∧
        Num (sub.html k'.ordered (m ++ [k'.mark]) (if sub.isDone then N1 else k'.start (m ++ [k'.mark]) N1)).2 σ1 ∧
        (∀ lr σ2, Runs C (listLoop C (some p) (keepLists R.head? L2) R) lr σ1 σ2 →
          Runs C (listLoop C prev L (flat m (if first then k.suffix else []) (.item t k' sub next) ++ rest)) (ls ++ lr) σ σ2) ∧
        linesText ls = (if first then t!"\n" ++ openList k m (k.start m N m) else []) ++ liText m t ++
          (if sub.isDone then [] else t!"\n" ++ k'.around (m.length + 1)
            ((if sub.isDone then N1 else k'.start (m ++ [k'.mark]) N1) (m ++ [k'.mark]))
            (sub.lastDepth (m.length + 1) (m.length + 1))
            (sub.html k'.ordered (m ++ [k'.mark]) (if sub.isDone then N1 else k'.start (m ++ [k'.mark]) N1)).1) ++ t!"</li>" ++
          closing C.U (sub.lastDepth (m.length + 1) m.length) R.head? L2 := by
      intro R hR hRn
      obtain ⟨l, σ1, hr1, hn1, hl, hs⟩ := step
      rw [← hR] at hl hs
      cases hsub : sub with
      | done =>
        subst hsub
        refine ⟨[l], mkItem m (if first then k.suffix else []) t, σ1, Nat.le_refl _, hr1, hn1, hs, ?_⟩
        simp only [linesText, List.flatMap_cons, List.flatMap_nil, List.append_nil, hl]
        rw [show flat (m ++ [k'.mark]) k'.suffix .done ++ R = R from rfl, show endsItem R.head? (mkItem m [] t) = true from ?_]
        · simp [closeLi, Spec.Items.isDone, Spec.Items.lastDepth]
        · cases hh : R.head? with
          | none => rfl
          | some i => exact decide_eq_true (hRn i hh)
      | item t' k'' sub' next' =>
        rw [← hsub]
        have hd : sub ≠ .done := by rw [hsub]; exact fun h => nomatch h
        have hid : sub.isDone = false := by rw [hsub]; rfl
        have hml : (m ++ [k'.mark]).length = m.length + 1 := by simp
        obtain ⟨i, hi, hil⟩ := flat_head (m := m ++ [k'.mark]) (s := k'.suffix) hd R
        rw [hml] at hil
        have hS3 : Shallow i.level L2 := fun p hpm => ⟨by have := (hS2 p hpm).1; omega, (hS2 p hpm).2⟩
        rw [hi, (closing_none hS3).1, List.append_nil] at hl
        rw [hi, (closing_none (d := 0) (U := C.U) hS3).2] at hs
        obtain ⟨ls, p, σ2, g1, g2, g3, g4, g5⟩ := ihs hd hTs (hm.snoc k') (k := k') (by simp) true
          (some (mkItem m (if first then k.suffix else []) t)) L2 R σ1 N1 hn1
          (by simp [isFirst, mkItem, ListItem.level]) (fun _ => hk') (by simpa using hS2) (fun h => nomatch h) (by simpa using hRn)
        simp only [if_true] at g3 g4 g5
        simp only [hid, Bool.false_eq_true, if_false]
        refine ⟨l :: ls, p, σ2, by omega, hr1.trans g2, g3, fun lr σ3 h => hs _ _ (g4 _ _ h), ?_⟩
        have he : endsItem (some i) (mkItem m [] t) = false := by
          exact decide_eq_false (by show ¬ i.level ≤ m.length; omega)
        rw [he] at hl
        rw [show linesText (l :: ls) = (t!"\n" ++ l) ++ linesText ls from rfl, hl, g5,
          closing_snoc hRn (by omega), listType_kind (hm.snoc k') (k := k') (by simp), hml]
        have hld : sub.lastDepth (m.length + 1) (m.length + 1) = sub.lastDepth (m.length + 1) m.length := by
          rw [hsub]; rfl
        rw [hld, if_pos (show m.length + 1 > 1 by omega)]
        simp [closeLi, openList, Spec.ListKind.around, hml]
    -- the items after it
    have hset : (Spec.Items.item t k' sub next).html k.ordered m N0 =
        (liText m t ++ (if sub.isDone then [] else t!"\n" ++ k'.around (m.length + 1)
            ((if sub.isDone then N1 else k'.start (m ++ [k'.mark]) N1) (m ++ [k'.mark]))
            (sub.lastDepth (m.length + 1) (m.length + 1))
            (sub.html k'.ordered (m ++ [k'.mark]) (if sub.isDone then N1 else k'.start (m ++ [k'.mark]) N1)).1) ++ t!"</li>" ++
          (next.html k.ordered m (sub.html k'.ordered (m ++ [k'.mark]) (if sub.isDone then N1 else k'.start (m ++ [k'.mark]) N1)).2).1,
        (next.html k.ordered m (sub.html k'.ordered (m ++ [k'.mark]) (if sub.isDone then N1 else k'.start (m ++ [k'.mark]) N1)).2).2) := by
      rw [Spec.Items.html, hN1]
      simp [liText]
    rw [hset]
    generalize (if sub.isDone then [] else t!"\n" ++ k'.around (m.length + 1)
            ((if sub.isDone then N1 else k'.start (m ++ [k'.mark]) N1) (m ++ [k'.mark]))
            (sub.lastDepth (m.length + 1) (m.length + 1))
            (sub.html k'.ordered (m ++ [k'.mark]) (if sub.isDone then N1 else k'.start (m ++ [k'.mark]) N1)).1) = inner at step2 ⊢
    generalize (sub.html k'.ordered (m ++ [k'.mark]) (if sub.isDone then N1 else k'.start (m ++ [k'.mark]) N1)).2 = N2 at step2 ⊢
    cases hnx : next with
    | done =>
      rw [hnx] at step2
      obtain ⟨ls, p, σ1, h1, h2, h3, h4, h5⟩ := step2 rest rfl (fun i hi => by have := hrest i hi; omega)
      rw [hkeep] at h4
      refine ⟨ls, p, σ1, h1, h2, h3, h4, ?_⟩
      rw [h5]
      simp [Spec.Items.html, Spec.Items.lastDepth]
    | item t' k'' sub' next' =>
      have hd : next ≠ .done := by rw [hnx]; exact fun h => nomatch h
      obtain ⟨i, hi, hil⟩ := flat_head (m := m) (s := []) hd rest
      obtain ⟨ls, p, σ1, h1, h2, h3, h4, h5⟩ := step2 _ rfl (fun j hj => by rw [hi] at hj; cases hj; omega)
      rw [hi, (closing_none (by rw [hil]; exact hS2)).1, List.append_nil] at h5
      rw [hi, (closing_none (d := 0) (U := C.U) (by rw [hil]; exact hS2)).2] at h4
      obtain ⟨ls', p', σ2, g1, g2, g3, g4, g5⟩ := ihn hd hTn hm (k := k) hk false (some p) L2 rest σ1 N2 h3
        (by simp [isFirst]; omega) (fun h => nomatch h) (by simpa using hS2) (fun _ => hin2) hrest
      simp only [Bool.false_eq_true, if_false, List.nil_append] at g3 g4 g5
      rw [hkeep] at g4
      rw [← hnx]
      refine ⟨ls ++ ls', p', σ2, g1, h2.trans g2, g3, ?_, ?_⟩
      · intro lr σ3 h
        rw [List.append_assoc]
        exact h4 _ _ (g4 _ _ h)
      · rw [linesText_append, h5, g5]
        have : (Spec.Items.item t k' sub next).lastDepth m.length m.length = next.lastDepth m.length m.length := by
          rw [hnx]; rfl
        rw [this]
        simp

end Rustextile
