import Verif.SpecImages
import Verif.SignDoc

/-!
# Images in the text

What the expression for images finds.
-/

namespace Rustextile

open Prog

/-! ## Groups of attributes -/

theorem box_none {U : Uni} {o c : Char} {pre rest : Str} {s : Caps} (h : rest.head? ≠ some o) : (box o c).all U ⟨pre, rest⟩ s = [] := by
  rw [box, all_seq, look_chr_none h]; rfl

theorem box_heads {U : Uni} {o c : Char} {v pre rest : Str} {s : Caps} (h1 : v ≠ []) (h2 : c ∉ v) (h3 : '\n' ∉ v) :
    Heads U (box o c) pre ([o] ++ (v ++ [c])) rest s s := by
  have hs : ∀ x, evalSet U true [.chr c, .chr '\n'] x = true ↔ x ≠ c ∧ x ≠ '\n' := by
    intro x
    simp only [evalSet, Item.eval, List.any_cons, List.any_nil, Bool.or_false]
    constructor
    · intro h
      refine ⟨?_, ?_⟩ <;> rintro rfl <;> simp at h
    · rintro ⟨h1, h2⟩; simp [h1, h2, Char.toNat_inj]; exact fun e => h2 (Char.toNat_inj.1 e)
  refine Heads.seq .chr (Heads.seq (Heads.plus h1 ?_ ?_) .chr)
  · intro x hx
    rw [hs]
    exact ⟨fun e => h2 (e ▸ hx), fun e => h3 (e ▸ hx)⟩
  · intro x hx
    simp at hx; subst hx
    rw [← Bool.not_eq_true, hs]
    exact fun h => h.1 rfl

theorem group_heads {U : Uni} {g : Spec.Group} (h : g.Ok) (pre rest : Str) (s : Caps) :
    Heads U (kindBox g.kind) pre g.source rest s s := by
  have hl := group_box (U := U) h
  cases hk : g.kind <;> rw [hk] at hl <;> obtain ⟨v, e, h1, h2, h3⟩ := box_lang.1 hl <;> rw [e] <;> exact box_heads h1 h2 h3

theorem group_first (g : Spec.Group) : ∃ u, g.source = (match g.kind with | .classes => '(' | .style => '{' | .lang => '[') :: u := by
  cases g with
  | classes n i => cases i <;> exact ⟨_, rfl⟩
  | style ds => exact ⟨_, rfl⟩
  | lang l => exact ⟨_, rfl⟩

theorem groups_heads {U : Uni} {gs : List Spec.Group} (h : ∀ g ∈ gs, g.Ok) (hn : (gs.map Spec.Group.kind).Nodup) {pre rest : Str} {s : Caps}
    (hr : ∀ c, rest.head? = some c → c ∉ t!"([{") : Heads U groupsRe pre (gs.flatMap Spec.Group.source) rest s s := by
  have hno : ∀ k p s, (kindBox k).all U ⟨p, rest⟩ s = [] := by
    intro k p s
    cases k <;> exact box_none (fun e => absurd (hr _ e) (by decide))
  have hoth : ∀ (g : Spec.Group) (k : Spec.Kind) p r s, g.kind ≠ k → (kindBox k).all U ⟨p, g.source ++ r⟩ s = [] := by
    intro g k p r s hk
    obtain ⟨u, e⟩ := group_first g
    rw [e]
    cases h1 : g.kind <;> cases k <;> rw [h1] at hk <;> first | exact absurd rfl hk | exact box_none (by simp)
  have hC : boxC = kindBox .classes := rfl
  have hS : boxS = kindBox .style := rfl
  have hL : boxL = kindBox .lang := rfl
  rw [groups_shape, hC, hS, hL]
  have alt2 : ∀ {a b : Re} {p x : Str} {s : Caps}, a.all U ⟨p, x⟩ s = [] → b.all U ⟨p, x⟩ s = [] → (Re.alt a b).all U ⟨p, x⟩ s = [] := by
    intro a b p x s h1 h2
    rw [Re.all, h1, h2]; rfl
  have seq1 : ∀ {a b : Re} {p x : Str} {s : Caps}, a.all U ⟨p, x⟩ s = [] → (Re.seq a b).all U ⟨p, x⟩ s = [] := by
    intro a b p x s h1
    rw [all_seq, h1]; rfl
  match gs, h, hn with
  | [], _, _ =>
    refine Heads.right ?_ .eps
    exact alt2 (seq1 (hno _ _ _)) (alt2 (seq1 (hno _ _ _)) (seq1 (hno _ _ _)))
  | [a], h, _ =>
    have ha := fun rest pre => group_heads (U := U) (h a (by simp)) pre rest s
    have hx := fun k p r s => hoth a k p r s
    have hend : ∀ (k l m n : Spec.Kind) (u v : Re) p, Heads U (.alt (.alt (.seq (kindBox k) u) (.seq (kindBox l) v)) .eps) p [] rest s s := by
      intro k l m n u v p
      exact .right (alt2 (seq1 (hno _ _ _)) (seq1 (hno _ _ _))) .eps
    refine Heads.left ?_
    rw [show [a].flatMap Spec.Group.source = a.source ++ [] by simp]
    cases hk : a.kind <;> rw [hk] at ha hx
    · exact .left (.seq (ha _ _) (hend .lang .style .lang .lang _ _ _))
    · refine .right (seq1 ?_) (.right (seq1 ?_) (.seq (ha _ _) (hend .classes .lang .lang .lang _ _ _)))
      · rw [List.append_nil]; exact hx _ _ _ _ (fun e => nomatch e)
      · rw [List.append_nil]; exact hx _ _ _ _ (fun e => nomatch e)
    · refine .right (seq1 ?_) (.left (.seq (ha _ _) (hend .classes .style .lang .lang _ _ _)))
      rw [List.append_nil]; exact hx _ _ _ _ (fun e => nomatch e)
  | [a, b], h, hn =>
    have ha := fun rest pre => group_heads (U := U) (h a (by simp)) pre rest s
    have hb := fun pre => group_heads (U := U) (h b (by simp)) pre rest s
    have hx := fun k p r s => hoth a k p r s
    have hy := fun k p s => hoth b k p rest s
    have hend : ∀ (k : Spec.Kind) p, Heads U (.alt (kindBox k) .eps) p [] rest s s := by
      intro k p
      exact .right (hno _ _ _) .eps
    refine Heads.left ?_
    rw [show [a, b].flatMap Spec.Group.source = a.source ++ b.source by simp]
    have hsec : ∀ {k l : Spec.Kind} {x y : Spec.Kind} p, b.kind = k ∨ (b.kind ≠ k ∧ b.kind = l) →
        Heads U (.alt (.alt (.seq (kindBox k) (.alt (kindBox x) .eps)) (.seq (kindBox l) (.alt (kindBox y) .eps))) .eps) p b.source rest s s := by
      intro k l x y p hk
      refine .left ?_
      rw [← List.append_nil b.source]
      rcases hk with hk | ⟨h1, h2⟩
      · subst hk; exact .left (.seq (hb _) (hend _ _))
      · subst h2
        refine .right (seq1 ?_) (.seq (hb _) (hend _ _))
        rw [List.append_nil]; exact hy _ _ _ h1
    have hx' : ∀ k p s, a.kind ≠ k → (kindBox k).all U ⟨p, a.source ++ b.source ++ rest⟩ s = [] := by
      intro k p s hk
      rw [List.append_assoc]; exact hx _ _ _ _ hk
    cases hk : a.kind <;> rw [hk] at ha hx'
    · refine .left (.seq (ha _ _) (hsec _ ?_))
      cases hl : b.kind <;> simp [hk, hl] at hn ⊢
    · refine .right (seq1 (hx' _ _ _ (fun e => nomatch e))) (.right (seq1 (hx' _ _ _ (fun e => nomatch e))) (.seq (ha _ _) (hsec _ ?_)))
      cases hl : b.kind <;> simp [hk, hl] at hn ⊢
    · refine .right (seq1 (hx' _ _ _ (fun e => nomatch e))) (.left (.seq (ha _ _) (hsec _ ?_)))
      cases hl : b.kind <;> simp [hk, hl] at hn ⊢
  | [a, b, c], h, hn =>
    have ha := fun rest pre => group_heads (U := U) (h a (by simp)) pre rest s
    have hb := fun rest pre => group_heads (U := U) (h b (by simp)) pre rest s
    have hc := fun pre => group_heads (U := U) (h c (by simp)) pre rest s
    refine Heads.left ?_
    rw [show [a, b, c].flatMap Spec.Group.source = a.source ++ (b.source ++ c.source) by simp]
    have hsec : ∀ {k l : Spec.Kind} {x y : Spec.Kind} p, (b.kind = k ∧ c.kind = x) ∨ (b.kind ≠ k ∧ b.kind = l ∧ c.kind = y) →
        Heads U (.alt (.alt (.seq (kindBox k) (.alt (kindBox x) .eps)) (.seq (kindBox l) (.alt (kindBox y) .eps))) .eps) p (b.source ++ c.source) rest s s := by
      intro k l x y p hk
      refine .left ?_
      rcases hk with ⟨rfl, rfl⟩ | ⟨h1, rfl, rfl⟩
      · exact .left (.seq (hb _ _) (.left (hc _)))
      · refine .right (seq1 ?_) (.seq (hb _ _) (.left (hc _)))
        rw [List.append_assoc]; exact hoth _ _ _ _ _ h1
    have hx' : ∀ k p s, a.kind ≠ k → (kindBox k).all U ⟨p, a.source ++ (b.source ++ c.source) ++ rest⟩ s = [] := by
      intro k p s hk
      rw [List.append_assoc]; exact hoth _ _ _ _ _ hk
    cases hk : a.kind <;> rw [hk] at ha hx'
    · refine .left (.seq (ha _ _) (hsec _ ?_))
      cases hl : b.kind <;> cases hm : c.kind <;> simp [hk, hl, hm] at hn ⊢
    · refine .right (seq1 (hx' _ _ _ (fun e => nomatch e))) (.right (seq1 (hx' _ _ _ (fun e => nomatch e))) (.seq (ha _ _) (hsec _ ?_)))
      cases hl : b.kind <;> cases hm : c.kind <;> simp [hk, hl, hm] at hn ⊢
    · refine .right (seq1 (hx' _ _ _ (fun e => nomatch e))) (.left (.seq (ha _ _) (hsec _ ?_)))
      cases hl : b.kind <;> cases hm : c.kind <;> simp [hk, hl, hm] at hn ⊢
  | a :: b :: c :: d :: gs, h, hn =>
    exfalso
    simp only [List.map_cons, List.nodup_cons, List.mem_cons, not_or] at hn
    obtain ⟨⟨h1, h2, h3, -⟩, ⟨h4, h5, -⟩, ⟨h6, -⟩, -⟩ := hn
    cases hk : a.kind <;> cases hl : b.kind <;> cases hm : c.kind <;> cases ho : d.kind <;> simp_all

/-! ## The expression -/

def imAlignRe : Re := .alt (.set false [.chr '<', .chr '>', .chr '=']) (.alt (Re.lit t!"&lt;") (Re.lit t!"&gt;"))

def imUrlSet : List Item := [.cls .space, .chr '(', .chr '!']

def imTitleRe : Re := .seq (.set false [.chr '(']) (.seq (.grp 4 (.seq (.set true [.chr ')']) (.star true (.set true [.chr ')'])))) (.set false [.chr ')']))

def imLinkRe : Re := .seq (.set false [.chr ':']) (.seq (.grp 5 (.seq (.set false [.ncls .space]) (.star true (.set false [.ncls .space]))))
  (.behind true 1 (.set false [.chr ']', .chr ')', .chr '.', .chr ','])))

def imEndRe : Re := .alt (.set false [.chr ']', .chr '}'])
  (.look false (.alt (.set false [.chr '.', .chr ',', .cls .space, .chr ')', .chr '|']) .eot))

theorem IMAGE_shape : IMAGE_RE = .seq (.alt (.set false [.chr '[', .chr '{']) .eps) (.seq (.set false [.chr '!'])
    (.seq (.alt (.grp 1 imAlignRe) .eps) (.seq (.grp 2 groupsRe) (.seq (.alt (.seq (.set false [.chr '.']) (.set false [.cls .space])) .eps)
    (.seq (.grp 3 (.seq (.set true imUrlSet) (.star true (.set true imUrlSet)))) (.seq (.alt (.set false [.cls .space]) .eps)
    (.seq (.alt imTitleRe .eps) (.seq (.set false [.chr '!']) (.seq (.alt imLinkRe .eps) imEndRe))))))))) := by kernel_rfl


def capOf (n : Nat) : Option Str → Caps
  | none => []
  | some t => [(n, t)]

def linkOf : Option Str → Str
  | none => []
  | some l => ':' :: l

theorem sp_eval (U : Uni) (x : Char) : evalSet U false [.cls .space] x = isWs x := by simp [evalSet, Item.eval, UC.eval]
theorem nsp_eval (U : Uni) (x : Char) : evalSet U false [.ncls .space] x = !isWs x := by simp [evalSet, Item.eval, UC.eval]

theorem imAlign_heads {U : Uni} {al : Option Str} {pre rest : Str} {s : Caps} (h : ∀ a, al = some a → a ∈ [t!"<", t!">", t!"=", t!"&lt;", t!"&gt;"])
    (hr : ∀ c, rest.head? = some c → c ∉ t!"<>=&") : Heads U (.alt (.grp 1 imAlignRe) .eps) pre (al.getD []) rest s (capOf 1 al ++ s) := by
  cases al with
  | none =>
    refine .right ?_ .eps
    simp only [Option.getD_none, List.nil_append]
    cases rest with
    | nil => kernel_rfl
    | cons x X =>
      have := hr x rfl
      simp at this
      have e : ∀ n, (if n = true then t!"&lt;" else t!"&gt;") = '&' :: (if n = true then t!"lt;" else t!"gt;") := by intro n; cases n <;> rfl
      have hlit : ∀ w, (Re.lit ('&' :: 'l' :: w)).all U ⟨pre, x :: X⟩ s = [] ∧ (Re.lit ('&' :: 'g' :: w)).all U ⟨pre, x :: X⟩ s = [] := by
        intro w
        constructor <;> (simp only [Re.lit, List.map_cons, Re.seqs]; rw [all_seq, look_chr_none (by simp [this])]; rfl)
      simp [imAlignRe, Re.all, evalSet, Item.eval_chr, this, (hlit _).1, (hlit _).2]
  | some a =>
    refine .left (.grp ?_)
    have ha := h a rfl
    simp only [List.mem_cons, List.not_mem_nil, or_false] at ha
    simp only [Option.getD_some]
    rcases ha with rfl | rfl | rfl | rfl | rfl
    · exact .left (.set (by simp [evalSet, Item.eval_chr]))
    · exact .left (.set (by simp [evalSet, Item.eval_chr]))
    · exact .left (.set (by simp [evalSet, Item.eval_chr]))
    · exact ⟨[], by kernel_rfl⟩
    · exact ⟨[], by kernel_rfl⟩

theorem imTitle_heads {U : Uni} {ti : Option Str} {pre rest : Str} {s : Caps} (h : ∀ t, ti = some t → t ≠ [] ∧ ')' ∉ t)
    (hr : rest.head? ≠ some '(') : Heads U (.alt imTitleRe .eps) pre (Spec.inParens ti) rest s (capOf 4 ti ++ s) := by
  cases ti with
  | none =>
    refine .right ?_ .eps
    rw [imTitleRe, all_seq, look_chr_none (rest := Spec.inParens none ++ rest) (by simpa [Spec.inParens] using hr)]; rfl
  | some t =>
    refine .left ?_
    obtain ⟨h1, h2⟩ := h t rfl
    rw [show Spec.inParens (some t) = ['('] ++ (t ++ [')']) by rfl]
    refine Heads.seq .chr (Heads.seq (.grp (.plus h1 ?_ ?_)) .chr)
    · intro x hx
      have : x ≠ ')' := fun e => h2 (e ▸ hx)
      simp [evalSet, Item.eval_chr, this]
    · intro x hx
      simp at hx; subst hx
      simp [evalSet, Item.eval_chr]

theorem imLink_heads {U : Uni} {li : Option Str} {pre rest : Str} {s : Caps}
    (h : ∀ l, li = some l → (∀ c ∈ l, isWs c = false) ∧ ∃ u c, l = u ++ [c] ∧ c ∉ t!"]).,")
    (hr : ∀ c, rest.head? = some c → isWs c = true ∨ (li = none ∧ c ∈ t!".,")) :
    Heads U (.alt imLinkRe .eps) pre (linkOf li) rest s (capOf 5 li ++ s) := by
  cases li with
  | none =>
    refine .right ?_ .eps
    rw [imLinkRe, all_seq, look_chr_none, List.flatMap_nil]
    intro e
    rcases hr _ e with h | ⟨-, h⟩ <;> exact absurd h (by decide)
  | some l =>
    obtain ⟨h1, u, c, e2, h2⟩ := h l rfl
    refine .left ?_
    have e : linkOf (some l) = [':'] ++ (l ++ []) := by simp [linkOf]
    rw [e]
    refine Heads.seq .chr (Heads.seq (s1 := (5, l) :: s) (.grp (.plus (by simp [e2]) ?_ ?_)) (.of_eq ?_))
    · intro x hx
      rw [nsp_eval, h1 x hx]; rfl
    · intro x hx
      have := hr x (by simpa using hx)
      simp at this
      rw [nsp_eval, this]; rfl
    · subst e2
      simp at h2
      simp [Re.all, Cur.back, evalSet, Item.eval_chr, h2]

theorem imEnd_heads {U : Uni} {pre rest : Str} {s : Caps} (hr : ∀ c, rest.head? = some c → isWs c = true ∨ c ∈ t!".,") :
    Heads U imEndRe pre [] rest s s := by
  refine .right ?_ (.of_eq ?_)
  · cases rest with
    | nil => rfl
    | cons x X =>
      have : x ≠ ']' ∧ x ≠ '}' := by
        constructor <;> (rintro rfl; rcases hr _ rfl with h | h <;> exact absurd h (by decide))
      simp [Re.all, evalSet, Item.eval_chr, this]
  · cases rest with
    | nil => simp [Re.all]
    | cons x X =>
      have h1 : evalSet U false [.chr '.', .chr ',', .cls .space, .chr ')', .chr '|'] x = true := by
        rcases hr _ rfl with h | h
        · simp [evalSet, Item.eval, UC.eval, h]
        · simp at h
          rcases h with rfl | rfl <;> simp [evalSet, Item.eval_chr]
      simp [Re.all, h1]

theorem imDot_heads {U : Uni} {pre rest : Str} {s : Caps} (hr : ∀ v, rest = '.' :: v → ∀ c, v.head? = some c → isWs c = false) :
    Heads U (.alt (.seq (.set false [.chr '.']) (.set false [.cls .space])) .eps) pre [] rest s s := by
  refine .right ?_ .eps
  cases rest with
  | nil => rfl
  | cons x v =>
    by_cases hx : x = '.'
    · subst hx
      cases v with
      | nil => simp [Re.all, evalSet_chr]
      | cons y v =>
        have := hr _ rfl y rfl
        simp [Re.all, evalSet_chr, sp_eval, this]
    · simp [Re.all, evalSet_chr, hx]

/-- The parts of an image. -/
structure ImParts where
  al : Option Str
  gs : List Spec.Group
  url : Str
  ti : Option Str
  li : Option Str

def ImParts.text (i : ImParts) : Str :=
  '!' :: (i.al.getD [] ++ (i.gs.flatMap Spec.Group.source ++ (i.url ++ (Spec.inParens i.ti ++ ('!' :: linkOf i.li)))))

structure ImParts.Ok (U : Uni) (i : ImParts) (rest : Str) : Prop where
  al : ∀ a, i.al = some a → a ∈ [t!"<", t!">", t!"=", t!"&lt;", t!"&gt;"]
  gs : (∀ g ∈ i.gs, g.Ok) ∧ (i.gs.map Spec.Group.kind).Nodup
  url : ∀ c ∈ i.url, isWs c = false ∧ c ≠ '(' ∧ c ≠ '!'
  first : ∃ c u, i.url = c :: u ∧ c ∉ t!"<>=&([{"
  ti : ∀ t, i.ti = some t → t ≠ [] ∧ ')' ∉ t
  li : ∀ l, i.li = some l → (∀ c ∈ l, isWs c = false) ∧ ∃ u c, l = u ++ [c] ∧ c ∉ t!"]).,"
  after : ∀ c, rest.head? = some c → isWs c = true ∨ (i.li = none ∧ c ∈ t!".,")

def ImParts.caps (i : ImParts) : Caps :=
  capOf 5 i.li ++ (capOf 4 i.ti ++ ((3, i.url) :: (2, i.gs.flatMap Spec.Group.source) :: (capOf 1 i.al ++ [])))

theorem image_heads {U : Uni} {i : ImParts} {pre rest : Str} (h : i.Ok U rest) :
    Heads U IMAGE_RE pre i.text rest [] i.caps := by
  obtain ⟨al, gs, url, ti, li⟩ := i
  obtain ⟨c0, u0, e0, hc0⟩ := h.first
  simp only at e0
  have hurl : ∀ {x c}, (url ++ x).head? = some c → c ∉ t!"<>=&([{" := by
    intro x c hc
    rw [e0] at hc; simp at hc; subst hc; exact hc0
  have hgl : ∀ {x c}, (gs.flatMap Spec.Group.source ++ (url ++ x)).head? = some c → c ∉ t!"<>=&" := by
    intro x c hc
    cases gs with
    | nil => intro hm; refine hurl (c := c) (x := x) hc ?_; revert hm; simp; grind
    | cons g gs =>
      obtain ⟨u, e⟩ := group_first g
      rw [List.flatMap_cons, e] at hc
      cases hk : g.kind <;> rw [hk] at hc <;> simp at hc <;> subst hc <;> decide
  have hin : ∀ {x : Str} {c}, (Spec.inParens ti ++ ('!' :: x)).head? = some c → c = '(' ∨ c = '!' := by
    intro x c hc
    cases ti with
    | none => simp [Spec.inParens] at hc; exact .inr hc.symm
    | some t => simp [Spec.inParens] at hc; exact .inl hc.symm
  rw [IMAGE_shape]
  have e : ImParts.text ⟨al, gs, url, ti, li⟩ =
      [] ++ (['!'] ++ (al.getD [] ++ (gs.flatMap Spec.Group.source ++ ([] ++ (url ++ ([] ++ (Spec.inParens ti ++ (['!'] ++ (linkOf li ++ []))))))))) := by
    simp [ImParts.text]
  rw [e]
  refine Heads.seq (.right ?_ .eps) (Heads.seq .chr (Heads.seq (imAlign_heads h.al ?_)
    (Heads.seq (.grp (groups_heads h.gs.1 h.gs.2 ?_)) (Heads.seq (imDot_heads ?_) (Heads.seq (.grp (.plus (by simp [e0]) ?_ ?_))
    (Heads.seq (.right ?_ .eps) (Heads.seq (imTitle_heads h.ti ?_)
    (Heads.seq .chr (Heads.seq (imLink_heads h.li ?_) (imEnd_heads ?_))))))))))
  · simp [Re.all, evalSet, Item.eval_chr]
  · intro c hc
    exact hgl (c := c) (by rw [List.append_assoc, List.nil_append, List.append_assoc] at hc; exact hc)
  · intro c hc
    have := hurl (c := c) (by rw [List.nil_append, List.append_assoc] at hc; exact hc)
    revert this; simp
  · intro v hv c hc
    rw [List.append_assoc, e0] at hv
    simp only [List.cons_append, List.cons.injEq] at hv
    obtain ⟨-, rfl⟩ := hv
    cases u0 with
    | nil =>
      have := hin (c := c) (x := linkOf li ++ rest) (by simpa using hc)
      rcases this with rfl | rfl <;> decide
    | cons y u =>
      simp at hc; subst hc
      exact (h.url y (by simp [e0])).1
  · intro c hc
    have := h.url c hc
    simp [evalSet, imUrlSet, Item.eval, UC.eval]
    refine ⟨this.1, fun e => this.2.1 (Char.toNat_inj.1 e), fun e => this.2.2 (Char.toNat_inj.1 e)⟩
  · intro c hc
    have := hin (c := c) (x := linkOf li ++ rest) (by simpa using hc)
    rcases this with rfl | rfl <;> simp [evalSet, imUrlSet, Item.eval, UC.eval]
  · have := fun c => hin (c := c) (x := linkOf li ++ rest)
    rw [show [] ++ ((Spec.inParens ti ++ (['!'] ++ (linkOf li ++ []))) ++ rest) = Spec.inParens ti ++ ('!' :: (linkOf li ++ rest)) by simp]
    generalize Spec.inParens ti ++ ('!' :: (linkOf li ++ rest)) = X at this
    cases X with
    | nil => rfl
    | cons x X =>
      rcases this x rfl with rfl | rfl <;> simp [Re.all, sp_eval] <;> decide
  · simp
  · intro c hc
    exact h.after c (by simpa using hc)
  · intro c hc
    rcases h.after c (by simpa using hc) with h | ⟨-, h⟩
    · exact .inl h
    · exact .inr h

theorem image_hit {U : Uni} {i : ImParts} {pre rest : Str} (h : i.Ok U rest) :
    IMAGE_RE.matchAt U ⟨pre, i.text ++ rest⟩ = some (⟨i.text.reverse ++ pre, rest⟩, i.caps) := (image_heads h).matchAt

theorem image_skips {U : Uni} {w pre rest : Str} (h : ∀ c ∈ w, c ∉ t!"[{!") : Skips U IMAGE_RE pre w rest := by
  intro u x v e
  have := h x (by simp [e])
  simp at this
  rw [Re.matchAt_none, IMAGE_shape, all_seq]
  simp [Re.all, evalSet, Item.eval_chr, this]

theorem image_grps (i : ImParts) (gap w : Str) : (Mat.mk gap w i.caps).get? 1 = i.al ∧ (Mat.mk gap w i.caps).grp 2 = i.gs.flatMap Spec.Group.source ∧
    (Mat.mk gap w i.caps).grp 3 = i.url ∧ (Mat.mk gap w i.caps).get? 4 = i.ti ∧ (Mat.mk gap w i.caps).get? 5 = i.li := by
  obtain ⟨al, gs, url, ti, li⟩ := i
  cases al <;> cases ti <;> cases li <;> refine ⟨?_, ?_, ?_, ?_, ?_⟩ <;> simp [ImParts.caps, Mat.get?, Mat.grp, capOf, alLookup]

end Rustextile
