import Verif.RegexParse

/-!
# The regular expressions of the crate, quoted from the source

`pattern NAME := src` defines the pattern text `NAME_src` and the parsed
expression `NAME`.
-/

namespace Rustextile

/-! ## /repo/src/regex_snips.rs -/

/-- regex_snips.rs:18-20 -/
def CLASS_S : Str := t! r"(?:\([^)\n]+\))"
def STYLE_S : Str := t! r"(?:\{[^}\n]+\})"
def LANGUAGE_S : Str := t! r"(?:\[[^\]\n]+\])"
/-- regex_snips.rs:21-31 -/
def SNIP_ACR : Str := t! r"\p{Lu}\p{Nd}"
def SNIP_DIGIT : Str := t! r"\p{N}"
def SNIP_SPACE : Str := t! r"\s"
def SNIP_WRD : Str := t! r"(?:\p{L}|\p{M}|\p{N}|\p{Pc})"
def SNIP_CUR : Str := t! r"\p{Currency_Symbol}"
def SNIP_CHAR : Str := t! r"\S"
def VALIGN_S : Str := t! r"[\-^~]"
def HALIGN_S : Str := t! r"(?:\<(?!>)|(?<!<)\>|\<\>|\=|[()]+(?! ))"
def SNIP_ABR : Str := t! r"\p{Lu}"
def PNCT_S : Str := t! r##"[-!"#$%&()*+,/:;<=>?@\'\[\\\]\.^_`{|}~]"##
/-- regex_snips.rs:38-41 -/
def BLOCK_CONTENT : Str :=
  t!"address|article|aside|blockquote|details|div|dl|fieldset|figure|figcaption" ++
  t!"|footer|form|h1|h2|h3|h4|h5|h6|header|hgroup|main|menu|nav|ol" ++
  t!"|pre|p|section|s|table|template|ul"
/-- regex_snips.rs:45-51 -/
def CLS_S : Str :=
  t!"(?:" ++
  CLASS_S ++ t!"(?:" ++ LANGUAGE_S ++ t!"(?:" ++ STYLE_S ++ t!")?|" ++ STYLE_S ++ t!"(?:" ++ LANGUAGE_S ++ t!")?)?|" ++
  LANGUAGE_S ++ t!"(?:" ++ CLASS_S ++ t!"(?:" ++ STYLE_S ++ t!")?|" ++ STYLE_S ++ t!"(?:" ++ CLASS_S ++ t!")?)?|" ++
  STYLE_S ++ t!"(?:" ++ CLASS_S ++ t!"(?:" ++ LANGUAGE_S ++ t!")?|" ++ LANGUAGE_S ++ t!"(?:" ++ CLASS_S ++ t!")?)?" ++
  t!")?"
/-- regex_snips.rs:54 -/
def ALIGN_S : Str := t!"(?:" ++ HALIGN_S ++ t!"|" ++ VALIGN_S ++ t!")*"
/-- table.rs:12-16 -/
def TABLE_SPAN_S : Str := t! r"(?:(?:\\\d+)|(?:\/\d+))*"

/-- regex_snips.rs:56 -/
pattern LONE_AMP_RE := t! r"(?i)&(?!#[0-9]+;|#x[a-f0-9]+;|[a-z][a-z0-9]*;)"
/-- regex_snips.rs:57-58 -/
pattern DIVIDER_RE := t! r"(?si)^(?:</?(br|hr|img)(?:\s[^<>]*?|/?)>(?:</\1\s*?>)?)+$"

/-! ## /repo/src/htmltools.rs -/

/-- htmltools.rs:49-50 -/
pattern ENTITY_RE := t!"(&(?:amp|lt|gt|quot|#39|#13|#10|#9);)"
/-- htmltools.rs:273-279 -/
def PHRASING_CONTENT : Str :=
  t!"abbr|acronym|area|audio|a|bdo|br|button|b|canvas|cite|code|command|" ++
  t!"data|datalist|del|dfn|em|embed|iframe|img|input|ins|i|kbd|keygen|" ++
  t!"label|link|map|mark|math|meta|meter|noscript|object|output|progress|" ++
  t!"q|ruby|samp|script|select|small|span|strong|sub|sup|svg|textarea|" ++
  t!"time|var|video|wbr"
/-- htmltools.rs:281-282 -/
pattern UNWRAPPABLE_RE := t! r"(?si)</?(?:" ++ BLOCK_CONTENT ++ t! r")(?:\s[^<>]*?|/?)>"
/-- htmltools.rs:283-284 -/
pattern WRAPPED_RE := t! r"(?si)^</?([^\s<>/]+)[^<>]*?>(?:.*</\1\s*?>)?$"
/-- htmltools.rs:285-286 -/
pattern PHRASING_RE := t!"(?i)^(?:" ++ PHRASING_CONTENT ++ t!")$"

/-! ## /repo/src/block.rs -/

/-- block.rs:32-33 -/
pattern CSS_CLASS_NAME_RE := t! r"(?i)^-?[_a-z][_a-z0-9-]*$"
/-- block.rs:103 -/
pattern COLSPAN_RE := t! r"\\(\d+)"
/-- block.rs:104 -/
pattern ROWSPAN_RE := t! r"/(\d+)"
/-- block.rs:105 -/
pattern ATTR_VALIGN_RE := t!"^" ++ VALIGN_S
/-- block.rs:106 -/
pattern ATTR_STYLE_RE := t! r"\{([^}]*)\}"
/-- block.rs:107 -/
pattern ATTR_LANG_RE := t! r"\[([^\]]+)\]"
/-- block.rs:108 -/
pattern ATTR_ACLASS_RE := t! r"\(([^()]+)\)"
/-- block.rs:109 -/
pattern CSS_ID_RE := t! r"^([-a-zA-Z0-9_\.\:]*)$"
/-- block.rs:110 -/
pattern ATTR_PADDING_LEFT_RE := t! r"([(]+)"
/-- block.rs:111 -/
pattern ATTR_PADDING_RIGHT_RE := t! r"([)]+)"
/-- block.rs:112 -/
pattern ATTR_COL_RE := t! r"^(?:\\(\d+)\.?)?\s*(\d+)?"
/-- block.rs:113 -/
pattern CSS_CLASSES_RE := t! r"^([-a-zA-Z 0-9_\.\/\[\]]*)$"
/-- block.rs:219-220 -/
pattern ATTR_HALIGN_RE := t!"(" ++ HALIGN_S ++ t!")"
/-- block.rs:300 -/
pattern FNID_RE := t!"fn(?P<fnid>" ++ SNIP_DIGIT ++ t!"+)"
/-- block.rs:301 -/
pattern CODE_LANG_RE := t! r"^[a-zA-Z0-9_-]+$"
/-- block.rs:316-327 -/
pattern NOTEDEF_RE :=
  t! r"^note#" ++ t! r"(?P<label>[^%<*!@#^(\[{ \s.]+)" ++ t! r"(?P<link>[*!^]?)" ++
  t!"(?P<att>" ++ CLS_S ++ t!")" ++ t! r"\.?" ++ t! r"[\s]+" ++ t! r"(?P<content>.*)$"

/-! ## /repo/src/table.rs -/

/-- table.rs:72-73 -/
pattern COMPONENTS_RE := t! r"(?m)\|" ++ SNIP_SPACE ++ t!"*?$"
/-- table.rs:74-77 -/
pattern CAPTION_RE := t! r"(?s)^\|\=(?P<capts>" ++ TABLE_SPAN_S ++ ALIGN_S ++ CLS_S ++
  t! r")\. (?P<cap>[^\n]*)(?P<row>.*)"
/-- table.rs:79-84 -/
pattern GRPMATCH_RE := t! r"(?ms)(:?^\|(?P<part>" ++ VALIGN_S ++ t!")(?P<rgrpatts>" ++
  TABLE_SPAN_S ++ ALIGN_S ++ CLS_S ++ t!")" ++ t! r"\." ++ SNIP_SPACE ++ t! r"*$\n)?^(?P<row>.*)"
/-- table.rs:87-89 -/
pattern RMTCH_RE := t!"^(?P<ratts>" ++ ALIGN_S ++ CLS_S ++ t! r"\. )(?P<row>.*)"
/-- table.rs:91-93 -/
pattern CMTCH_RE := t!"(?s)^(?P<catts>_?" ++ TABLE_SPAN_S ++ ALIGN_S ++ CLS_S ++ t! r"\. )(?P<cell>.*)"
/-- table.rs:94-95 -/
pattern CELL_A_PATTERN_RE := t!"(?s)(?P<space>" ++ SNIP_SPACE ++ t!"*)(?P<cell>.*)"
/-- table.rs:96-98 -/
pattern COLGROUP_RE := t! r"(?m)^\|:(?P<cols>" ++ TABLE_SPAN_S ++ ALIGN_S ++ CLS_S ++ t! r"\. .*)"
/-- table.rs:99-100 -/
pattern HEADING_RE := t!"^_(?=" ++ SNIP_SPACE ++ t!"|" ++ PNCT_S ++ t!")"

/-! ## /repo/src/parser.rs -/

/-- parser.rs:22 -/
def SYMS : Str := t!"¤§µ¶†‡•∗∴◊♠♣♥♦"

/-- parser.rs:30 -/
def SPAN_PNCT : Str := t!".,\"'?!;:‹›«»„“”‚‘’"

/-- parser.rs:29-44, `span_re(tag)` -/
def spanSrc (tag : Str) : Str :=
  t! r"(?P<pre>^|(?<=[\s>" ++ SPAN_PNCT ++ t! r"\(])|[{\[])" ++
  t!"(?P<tag>" ++ tag ++ t!")(?!" ++ tag ++ t!")" ++
  t!"(?P<atts>" ++ CLS_S ++ t!")" ++
  t!"(?!" ++ tag ++ t!")" ++
  t! r"(?::(?P<cite>\S+[^" ++ tag ++ t!"]" ++ SNIP_SPACE ++ t!"))?" ++
  t!"(?P<content>[^" ++ SNIP_SPACE ++ tag ++ t! r"]+|\S.*?[^\s" ++ tag ++ t! r"\n])" ++
  t!"(?P<end>[" ++ SPAN_PNCT ++ t!"]*)" ++
  tag ++
  t! r"(?P<tail>$|[\[\]}<]|(?=[" ++ SPAN_PNCT ++ t! r"]{1,2}[^0-9]|\s|\)))"

/-- parser.rs:1538 `span_re(r"\*\*")` -/
pattern SPAN_B_RE := spanSrc t! r"\*\*"
/-- parser.rs:1538 `span_re(r"\*")` -/
pattern SPAN_STRONG_RE := spanSrc t! r"\*"
/-- parser.rs:1538 `span_re(r"\?\?")` -/
pattern SPAN_CITE_RE := spanSrc t! r"\?\?"
/-- parser.rs:1539 `span_re(r"\-")` -/
pattern SPAN_DEL_RE := spanSrc t! r"\-"
/-- parser.rs:1539 `span_re(r"__")` -/
pattern SPAN_I_RE := spanSrc t! r"__"
/-- parser.rs:1539 `span_re(r"_")` -/
pattern SPAN_EM_RE := spanSrc t! r"_"
/-- parser.rs:1539 `span_re(r"%")` -/
pattern SPAN_SPAN_RE := spanSrc t! r"%"
/-- parser.rs:1540 `span_re(r"\+")` -/
pattern SPAN_INS_RE := spanSrc t! r"\+"
/-- parser.rs:1540 `span_re(r"~")` -/
pattern SPAN_SUB_RE := spanSrc t! r"~"
/-- parser.rs:1540 `span_re(r"\^")` -/
pattern SPAN_SUP_RE := spanSrc t! r"\^"

/-- parser.rs:46-56, the pattern built by `do_special(text, start, end, ..)`;
`start` and `end` are given with `fancy_regex::escape` already applied. -/
def specialSrc (start stop : Str) : Str :=
  t! r"(?ms)(^|\s|[\[({>|])" ++ start ++ t!"(.*?)" ++ stop ++ t! r"($|[\])}])?"

/-- parser.rs:448 -/
pattern SP_NOTEXTILE_RE := specialSrc t!"<notextile>" t!"</notextile>"
/-- parser.rs:449 -/
pattern SP_EQ_RE := specialSrc t!"==" t!"=="
/-- parser.rs:471 -/
pattern SP_CODE_RE := specialSrc t!"<code>" t!"</code>"
/-- parser.rs:472 -/
pattern SP_AT_RE := specialSrc t!"@" t!"@"
/-- parser.rs:473 -/
pattern SP_PRE_RE := specialSrc t!"<pre>" t!"</pre>"
/-- parser.rs:478 (`escape` puts a backslash before `-`) -/
pattern SP_COMMENT_RE := specialSrc t! r"<!\-\-" t! r"\-\->"

/-- parser.rs:84-85 -/
def CUR_S : Str := t!"(?:[" ++ SNIP_CUR ++ t!"]" ++ SNIP_SPACE ++ t!"*)?"

/-- parser.rs:89-94 dimension sign -/
pattern GL_DIM_RE := t! r#"(?i)(?<=\b|x)([0-9]+[\])]?['"]? ?)[x]( ?[\[(]?)"# ++
  t!"(?=[+-]?" ++ CUR_S ++ t! r"[0-9]*\.?[0-9]+)"
/-- parser.rs:96 apostrophe's -/
pattern GL_APOS_RE := t!"(" ++ SNIP_WRD ++ t! r"|\))'(" ++ SNIP_WRD ++ t!")"
/-- parser.rs:99 back in '88 -/
pattern GL_88_RE := t!"(" ++ SNIP_SPACE ++ t! r")'(\d+" ++ SNIP_WRD ++ t! r"?)\b(?![.]?[" ++ SNIP_WRD ++ t!"]*?')"
/-- parser.rs:102 -/
pattern GL_SOPENB_RE := t! r"([(\[{])'(?=\S)"
/-- parser.rs:104 -/
pattern GL_SCLOSE_RE := t! r"(\S)'(?=" ++ SNIP_SPACE ++ t!"|" ++ PNCT_S ++ t!"|<|$)"
/-- parser.rs:107 -/
pattern GL_SOPEN_RE := t!"'"
/-- parser.rs:110 -/
pattern GL_DOPENB_RE := t! r#"([(\[{])"(?=\S)"#
/-- parser.rs:112 -/
pattern GL_DCLOSE_RE := t! r#"(\S)"(?="# ++ SNIP_SPACE ++ t!"|" ++ PNCT_S ++ t!"|<|$)"
/-- parser.rs:115 -/
pattern GL_DOPEN_RE := t!"\""
/-- parser.rs:117 -/
pattern GL_ELLIPSIS_RE := t! r"([^.]?)\.{3}"
/-- parser.rs:119 -/
pattern GL_AMP_RE := t! r"(\s?)&(\s)"
/-- parser.rs:121 -/
pattern GL_EMDASH_RE := t! r"(\s?)--(\s?)"
/-- parser.rs:123 -/
pattern GL_ENDASH_RE := t! r" - "
/-- parser.rs:125 -/
pattern GL_TM_RE := t! r"(?i)(\b ?|" ++ SNIP_SPACE ++ t! r"|^)[(\[]TM[\])]"
/-- parser.rs:128 -/
pattern GL_R_RE := t! r"(?i)(\b ?|" ++ SNIP_SPACE ++ t! r"|^)[(\[]R[\])]"
/-- parser.rs:131 -/
pattern GL_C_RE := t! r"(?i)(\b ?|" ++ SNIP_SPACE ++ t! r"|^)[(\[]C[\])]"
/-- parser.rs:134 -/
pattern GL_12_RE := t! r"[(\[]1\/2[\])]"
/-- parser.rs:136 -/
pattern GL_14_RE := t! r"[(\[]1\/4[\])]"
/-- parser.rs:138 -/
pattern GL_34_RE := t! r"[(\[]3\/4[\])]"
/-- parser.rs:140 -/
pattern GL_DEG_RE := t! r"[(\[]o[\])]"
/-- parser.rs:142 -/
pattern GL_PM_RE := t! r"[(\[]\+\/-[\])]"
/-- parser.rs:144 -/
pattern GL_ACR_RE := t! r"\b([" ++ SNIP_ABR ++ t!"][" ++ SNIP_ACR ++ t! r"]{2,})\b(?:[(]([^)]*)[)])"

/-- parser.rs:324-327 -/
pattern NOTELIST_RE := t!"<p>notelist(" ++ CLS_S ++ t! r")(?:\:([\w|" ++ SYMS ++ t! r"]))?([\^!]?)(\+?)\.?[\s]*</p>"
/-- parser.rs:417, the part after the token; `{uid}(?P<token>[0-9]+):url` -/
pattern URL_TOKEN_TAIL := t!"(?P<token>[0-9]+):url"
/-- parser.rs:1612, the part after the token -/
pattern OSPAN_TOKEN_TAIL := t!"(?P<token>[0-9]+):ospan "
/-- parser.rs:1623, the part after the token -/
pattern CSPAN_TOKEN_TAIL := t!"(?P<token>[0-9]+):cspan"
/-- parser.rs:505-512, `make_url_ref_re(RESTRICTED_URL_SCHEMES)` -/
pattern RESTRICTED_URLREF_RE :=
  t! r"(?:(?<=^)|(?<=\s))\[(.+)\]((?:http|https|ftp|mailto:\/\/|\/)\S+)(?=\s|$)"
/-- parser.rs:505-513, `make_url_ref_re(UNRESTRICTED_URL_SCHEMES)` -/
pattern UNRESTRICTED_URLREF_RE :=
  t! r"(?:(?<=^)|(?<=\s))\[(.+)\]((?:http|https|ftp|mailto|file|tel|callto|sftp|data:\/\/|\/)\S+)(?=\s|$)"
/-- parser.rs:533-548 -/
pattern IMAGE_RE :=
  t! r"(?:[\[{])?" ++ t! r"\!" ++ t! r"([<>=]|&lt;|&gt;)?" ++ t!"(" ++ CLS_S ++ t!")" ++
  t! r"(?:\.\s)?" ++ t! r"([^\s(!]+)" ++ t! r"\s?" ++ t! r"(?:\(([^\)]+)\))?" ++ t! r"\!" ++
  t! r"(?::(\S+)(?<![\]).,]))?" ++ t! r"(?:[\]}]|(?=[.,\s)|]|$))"
/-- parser.rs:634-635 -/
pattern SLICE_RE := t!"\":(?=" ++ SNIP_CHAR ++ t!")"
/-- parser.rs:647 -/
pattern START_NOSPACE_RE := t! r"^\S|=$"
/-- parser.rs:648 -/
pattern END_NOSPACE_RE := t! r"\S$"
/-- parser.rs:746-754 -/
pattern TABLE_RE :=
  t!"(?ms)^(?:table(?P<tatts>_?" ++ TABLE_SPAN_S ++ ALIGN_S ++ CLS_S ++ t! r")\." ++
  t! r"(?P<summary>.*?)\n)?^(?P<rows>" ++ ALIGN_S ++ CLS_S ++ t! r"\.? ?\|.*\|)" ++ t! r"[\s]*\n\n"
/-- parser.rs:771-772 -/
pattern RCLIST_RE := t!"(?ms)^([-]+" ++ CLS_S ++ t!"[ .].*:=.*)$(?![^-])"
/-- parser.rs:773-774 -/
pattern RCLIST_SPLIT_RE := t! r"(?m)\n(?=[-])"
/-- parser.rs:777-778 -/
pattern ATTR_CONTENT_RE := t!"(?ms)^[-]+(" ++ CLS_S ++ t! r")\.? (.*)$"
/-- parser.rs:780-782 -/
pattern XM_RE := t!"(?s)^(.*?)" ++ SNIP_SPACE ++ t!"*:=(.*?)" ++ SNIP_SPACE ++ t!"*(=:|:=)?" ++ SNIP_SPACE ++ t!"*$"
/-- parser.rs:847-851 -/
pattern LISTS_RE := t! r"(?ms)^((?:[*;:]+|[*;:#]*#(?:_|\d+)?)" ++ CLS_S ++ t!"[ .].*)$" ++ t!"(?![^#*;:])"
/-- parser.rs:852 -/
pattern LISTS_SPLIT_RE := t! r"(?m)\n(?=[*#;:])"
/-- parser.rs:853-858 -/
pattern LINE_PARSER_RE := t! r"(?s)^(?P<tl>[#*;:]+)(?P<st>_|\d+)?(?P<atts>" ++ CLS_S ++ t!")[ .]" ++ t!"(?P<content>.*)$"
/-- parser.rs:870 -/
pattern LIST_START_RE := t! r"^([#*]+)"
/-- parser.rs:1065-1066, `<{tag}([^>]*?)>(.*)</{tag}>` for each tag it is used with -/
pattern TAG_LI_RE := t!"(?s)<li([^>]*?)>(.*)</li>"
/-- parser.rs:1065-1066 -/
pattern TAG_DT_RE := t!"(?s)<dt([^>]*?)>(.*)</dt>"
/-- parser.rs:1065-1066 -/
pattern TAG_DD_RE := t!"(?s)<dd([^>]*?)>(.*)</dd>"
/-- parser.rs:1065-1066 -/
pattern TAG_TD_RE := t!"(?s)<td([^>]*?)>(.*)</td>"
/-- parser.rs:1065-1066 -/
pattern TAG_TH_RE := t!"(?s)<th([^>]*?)>(.*)</th>"
/-- parser.rs:1077 -/
pattern TAG_P_RE := t! r"(?s)<(p|h[1-6])([^>]*?)>(.*)(</\1>)"
/-- parser.rs:1078-1079 -/
pattern BR_NL_RE := t!"(?i)<br[ ]*/?>" ++ SNIP_SPACE ++ t! r"*\n(?![" ++ SNIP_SPACE ++ t!"|])"
/-- parser.rs:1080 -/
pattern NEWLINE_RE := t! r"\n(?![\s|])"
/-- parser.rs:1097-1101 -/
pattern FOOTNOTE_RE := t! r"(?<=\S)\[(?P<id>" ++ SNIP_DIGIT ++ t! r"+)(?P<nolink>!?)\](?P<space>" ++ SNIP_SPACE ++ t!"?)"
/-- parser.rs:1135-1144 -/
pattern NOTEREF_RE := t! r"\[" ++ t!"(" ++ CLS_S ++ t!")" ++ t! r"\#" ++ t! r"([^\]!]+)" ++ t!"([!]?)" ++ t! r"\]"
/-- parser.rs:1223 -/
pattern GLYPH_SPLIT_RE := t! r"(<[\w\/!?].*?>)"
/-- parser.rs:1274: the part of the link pattern before the marker -/
pattern LINK_PRE_RE := t! r"(?P<pre>\[)?"
/-- parser.rs:1279-1283: the part of the link pattern after the marker (from its quote on) -/
def LINK_TAIL_src : Str := t! r#""(?P<inner>(?:.|\n)*?)":(?P<urlx>[^\s|^'"*]*)"#
/-- parser.rs:1279-1283; its groups are numbers 2 and 3 of the whole pattern -/
def LINK_TAIL : Re := re% 2 LINK_TAIL_src
/-- parser.rs:1295-1308 -/
pattern LINK_BLOCK_RE := t!"^(?P<atts>" ++ CLS_S ++ t!")" ++ SNIP_SPACE ++ t!"*(?P<text>(!.+!)|.+?)" ++
  t! r"(?:\((?P<title>[^)]+?)\))?$"
/-- parser.rs:1334 -/
pattern URL_TIGHT_RE := t! r"(?P<url>^.*\])(?P<tight>\[.*?)$"
/-- parser.rs:1349 -/
pattern URL_END_RE := t! r"(?P<url>^.*\])(?!=)(?P<end>.*?)$"
/-- parser.rs:1377 -/
pattern URL_TAG_RE := t!"^(?P<url_chars>.*)(?P<tag></[a-z]+)$"
/-- parser.rs:1630-1636 `textile_block_re` -/
def blockSrc (tags : Str) : Str :=
  t!"(?s)^(?P<tag>" ++ tags ++ t!")(?P<atts>" ++ ALIGN_S ++ CLS_S ++ ALIGN_S ++ t! r")\.(?P<ext>\.?)" ++
  t! r"(?::(?P<cite>\S+))? (?P<graf>.*)$"
/-- parser.rs:24, 1638-1639 -/
pattern TEXTILE_TAG_RE := blockSrc t! r"bq|bc|notextile|pre|h[1-6]|fn\d+|p|###"
/-- parser.rs:25, 1640-1641 -/
pattern TEXTILE_LIGHT_TAG_RE := blockSrc t!"bq|bc|p"
/-- parser.rs:1642 -/
pattern MULTI_ENDLINE_RE := t! r"(\n{2,})"
/-- parser.rs:1643 -/
pattern BR_TAG_RE := t! r"(?i)<br\s*?/?>"
/-- parser.rs:1748-1752 -/
pattern QUOTED_RE := t!" (?P<pre>[\"'\\(\\{\\[«»‹›„‚‘”])(?P<quoted>\"?|\"[^\"]+)(?P<post>.) "
/-- parser.rs:1857 -/
pattern CR_RE := t! r"\r\n?"
/-- parser.rs:1858 -/
pattern BLANK_LINE_RE := t! r"(?m)^[ \t]*\n"
/-- parser.rs:1875-1883 -/
pattern DYN_3PLUS_RE := t!"(" ++ SNIP_SPACE ++ t!"|^|[>(;-])([" ++ SNIP_ABR ++ t! r"]{3,})([\p{Ll}]*)" ++
  t!"(?=" ++ SNIP_SPACE ++ t!"|" ++ PNCT_S ++ t! r#"|<|$)(?=[^">]*?(<|$))"#
/-- parser.rs:1970 -/
pattern BR_PATTERN := t! r"<br( /)?>(?!\n)"

end Rustextile
