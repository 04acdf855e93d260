import Verif.SpecClass

/-!
# Quotations with the address of their source

The address is written behind the full stop of the block tag, as in `bq.:url text`.
-/

namespace Spec

/-- The address as written, and as it is in the `cite` attribute. -/
structure Cited where
  atts : Atts
  url : Text
  href : Text
  text : Marked

def Cited.source (q : Cited) : Text :=
  ['b', 'q'] ++ (q.atts.source ++ (['.', ':'] ++ (q.url ++ ([' '] ++ q.text.source))))

/-- In restricted mode, the text is escaped first. -/
def Cited.body (restricted : Bool) (q : Cited) : Marked := if restricted then q.text.escaped else q.text

def Cited.html (br : Text) (restricted : Bool) (q : Cited) : Text :=
  elementWith ['b', 'l', 'o', 'c', 'k', 'q', 'u', 'o', 't', 'e'] (attr ['c', 'i', 't', 'e'] (some (escape true q.href)) ++ q.atts.html restricted)
    (['\n', '\t'] ++ (elementWith ['p'] (q.atts.html restricted) ((q.body restricted).html br) ++ ['\n']))

/-- The address consists of visible ASCII characters; in restricted mode of such that are not escaped. -/
structure Cited.Ok (upper : Char → Bool) (lite restricted : Bool) (q : Cited) : Prop where
  text : q.text.Ok upper lite
  atts : q.atts.Ok
  written : q.atts.Written restricted
  before : q.atts.Before (q.url ++ q.text.source)
  nolist : ¬ notelistWord <+: q.text.source
  url : q.url ≠ [] ∧ ∀ c ∈ q.url, 33 ≤ c.toNat ∧ c.toNat ≤ 126
  plain : restricted = true → ∀ c ∈ q.url, c ∉ ['&', '<', '>', '"', '\'']
  href : NoSpacers q.href

inductive CiteBlock where
  | other (b : ClassBlock)
  | cited (q : Cited)

def CiteBlock.source : CiteBlock → Text
  | .other b => b.source
  | .cited q => q.source

def CiteBlock.html (html5 : Bool) (br : Text) (restricted asClass : Bool) (base : Text) (N : Numbers) (M : Notes) : CiteBlock → Text
  | .other b => b.html html5 br restricted asClass base N M
  | .cited q => q.html br restricted

def CiteBlock.numbers (N : Numbers) (restricted : Bool) : CiteBlock → Numbers
  | .other b => b.numbers N restricted
  | _ => N

def CiteBlock.notes (M : Notes) (restricted : Bool) : CiteBlock → Notes
  | .other b => b.notes M restricted
  | _ => M

def CiteBlock.marks : CiteBlock → Nat
  | .other b => b.marks
  | .cited q => q.text.parts.length + 1

def CiteBlock.chars : CiteBlock → Text
  | .other b => b.chars
  | _ => []

def CiteBlock.Resolved (R L : Text → Text → Prop) (rel : Option Text) : CiteBlock → Prop
  | .other b => b.Resolved R L rel
  | .cited q => L q.url q.href ∧ q.text.Resolved R rel

def CiteBlock.Ok (upper digit : Char → Bool) (lite restricted : Bool) : CiteBlock → Prop
  | .other b => b.Ok upper digit lite restricted
  | .cited q => q.Ok upper lite restricted

def citeHtml (html5 : Bool) (br : Text) (restricted asClass : Bool) (base : Text) : Numbers → Notes → List (CiteBlock × Nat) → List (Text × Nat)
  | _, _, [] => []
  | N, M, d :: ds => (d.1.html html5 br restricted asClass base N M, d.2) ::
      citeHtml html5 br restricted asClass base (d.1.numbers N restricted) (d.1.notes M restricted) ds

/-- The text of a document of such blocks, each with the number of newlines after it (two
more than given), and its HTML. -/
def citeSource (ds : List (CiteBlock × Nat)) : Text := glue (ds.map (fun d => (d.1.source, d.2)))

def citeDocHtml (html5 : Bool) (br : Text) (restricted asClass : Bool) (base : Text) (ds : List (CiteBlock × Nat)) : Text :=
  glue (citeHtml html5 br restricted asClass base (fun _ => 1) ⟨[], 0⟩ ds)

def citeMarks (ds : List (CiteBlock × Nat)) : Nat := (ds.map (fun d => d.1.marks)).sum

end Spec
