import Verif.Base
import Verif.Regex
import Verif.RegexParse
import Verif.Patterns
import Verif.PatternsCheck
import Verif.HtmlTools
import Verif.Url
import Verif.CharCounter
import Verif.Attrs
import Verif.State
import Verif.Parser
import Verif.Api
import Verif.Spec
import Verif.Demo
import Verif.Split
import Verif.RegexLemmas
import Verif.ProgLemmas
import Verif.RegexScan
import Verif.StrLemmas
import Verif.RegexSimp
import Verif.BreakLemmas
import Verif.Props.Whole
import Verif.Props.History
import Verif.Props.Html
import Verif.Props.Misc
import Verif.Effects
import Verif.UniOk
import Verif.Props.State
import Verif.Props.Links
import Verif.RegexStar
import Verif.Props.Newlines
import Verif.KernelRfl
import Verif.BlockLemmas
import Verif.Props.Failures
import Verif.Props.Restricted
import Verif.Props.Wrong
import Verif.Inert
import Verif.Quiet
import Verif.TagBlock
import Verif.Lang
import Verif.Ordinary
import Verif.Document
import Verif.Glue
import Verif.Rendered
import Verif.Paragraph
import Verif.Phases
import Verif.Instances
import Verif.Props.Documents
import Verif.RegexCaps
import Verif.Props.Urls
import Verif.Props.Attributes
import Verif.Props.Notes
import Verif.Props.Modes
import Verif.RegexLazy
import Verif.Props.Glyphs
import Verif.Props.Breaks
import Verif.Steps
import Verif.SpanRe
import Verif.Mix
import Verif.GrafRuns
import Verif.Tokens
import Verif.InlineText
import Verif.InlineBlock
import Verif.Grow
import Verif.Specials
import Verif.Slots
import Verif.LinkRe
import Verif.LinkStage
import Verif.InlineSource
import Verif.InlineDoc
import Verif.Props.Inline
import Verif.SpecLists
import Verif.ListLoop
import Verif.ListRe
import Verif.ListGraf
import Verif.ListBlock
import Verif.ListDoc
import Verif.Props.Lists
import Verif.Props.LinkDocs
import Verif.SpecAtts
import Verif.AttrValues
import Verif.Props.BlockAtts
import Verif.TagAtts
import Verif.Act
import Verif.SpecDocs
import Verif.StyledBlock
import Verif.StyledDoc
import Verif.NodeDoc
import Verif.Props.StyledDocs
import Verif.Auto
import Verif.Body
import Verif.Weave
import Verif.Starts
import Verif.SpecNotes
import Verif.Footnote
import Verif.FootnoteDoc
import Verif.Props.Footnotes
import Verif.Props.Token
import Verif.SpecTables
import Verif.TableRe
import Verif.TableGraf
import Verif.TableDoc
import Verif.Props.Tables
import Verif.SpecSigns
import Verif.SignRe
import Verif.SignStages
import Verif.SignGlyph
import Verif.SignText
import Verif.SignRun
import Verif.SignDoc
import Verif.Props.Signs
import Verif.SpecImages
import Verif.ImageRe
import Verif.ImageText
import Verif.ImageRun
import Verif.ImageKey
import Verif.InText
import Verif.ImageDoc
import Verif.Props.Images
import Verif.SpecEnds
import Verif.EndText
import Verif.EndDoc
import Verif.EndList
import Verif.EndParse
import Verif.Props.Endnotes
import Verif.SpecExt
import Verif.ExtLoop
import Verif.ExtDoc
import Verif.Props.Extended
import Verif.SpecCells
import Verif.CellAtts
import Verif.CellRe
import Verif.CellGraf
import Verif.CellRows
import Verif.CellHtml
import Verif.CellDoc
import Verif.Props.Cells
import Verif.SpecDefs
import Verif.DefRe
import Verif.DefDoc
import Verif.Props.Defs
import Verif.SpecCaps
import Verif.CapRe
import Verif.CapText
import Verif.CapDoc
import Verif.Props.Caps
import Verif.SpanAtt
import Verif.SpecClass
import Verif.ClassText
import Verif.ClassDoc
import Verif.Props.Classes
import Verif.SpecCite
import Verif.CiteDoc
import Verif.Props.Cites
import Verif.SpecAnchors
import Verif.AnchorRe
import Verif.AnchorText
import Verif.AnchorRun
import Verif.AnchorKey
import Verif.AnchorDoc
import Verif.Props.Anchors
import Verif.SpecRaw
import Verif.RawDoc
import Verif.Props.Raw
import Verif.SpecInline
import Verif.InlineMode
import Verif.Props.Unblocked
import Verif.SpecSafe
import Verif.Props.Safe
import Verif.Props.Apart
import Verif.Props.SafeNotes
import Verif.SpecKind
import Verif.Props.Kinds
import Verif.Props.Ids
import Verif.Props.Light
import Verif.Props.KindNotes
import Verif.Props.Ignored
import Verif.Props.InlineOnly
import Verif.EffectsSpan
import Verif.Props.InlineSafe
import Verif.Props.LinkSafe
