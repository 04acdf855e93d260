#!/usr/bin/env python3
"""Source of /verif/properties.jsonl (run: python3 tools/props.py)."""
import json, os
P = []
def p(id, title, statement, quantifier, why, anchors):
    P.append(dict(id=id, title=title, statement=statement, quantifier=quantifier,
                  why_tests_cant=why, anchors=anchors))
PA = "src/parser.rs:"
BL = "src/block.rs:"
HT = "src/htmltools.rs:"
TA = "src/table.rs:"
p("C01", "Blank input is returned unchanged",
  "For every configuration of a Textile value (all setters, sanitizer included) and every text made only of white space (or empty), parse(text) returns exactly text.",
  "every configuration, every whitespace-only text",
  "Whitespace-only texts are infinitely many (any mix of Unicode white space) and so are configurations.",
  [PA+"Textile::parse"])
p("C02", "Output never ends with a newline",
  "For every configuration and every text that is not blank, if parse(text) returns, the returned string does not end with '\\n'.",
  "every configuration (any sanitizer function), every non-blank text",
  "The last step runs after an arbitrary sanitizer and arbitrary markup; only a proof covers all of them.",
  [PA+"Textile::parse"])
p("C03", "Every line break tag is followed by a newline",
  "For every configuration and non-blank text, in the string returned by parse every occurrence of `<br>` or `<br />` is immediately followed by '\\n' or is at the very end of the output.",
  "every configuration, every text, every occurrence in the output",
  "Occurrences can come from markup, raw HTML, code, or the sanitizer; a test sees only some of them.",
  [PA+"Textile::parse", PA+"BR_PATTERN"])
p("C04", "The sanitizer sees everything",
  "When a sanitizer is configured, parse(text) is obtained from sanitize(body) only by inserting '\\n' directly after break tags, rewriting break tags to the configured flavour, and dropping trailing newlines, where body is what the same configuration without sanitizer computes before that step. No unsanitized user text can be added afterwards.",
  "every sanitizer function, configuration and text",
  "Needs to hold for every sanitizer behaviour and every text.",
  [PA+"Textile::parse", PA+"Textile::set_sanitize", PA+"Textile::adjust_sanitizer"])
p("C05", "parse does not depend on earlier calls",
  "For every Textile value and every sequence of earlier parse calls on it, parse(text) returns what a freshly built Textile value with the same settings returns.",
  "every history of calls (parse calls and setters interleaved)",
  "The value carries a hidden regex cache across calls; tests exercise a handful of histories.",
  [PA+"regex_cache", PA+"Textile::parse", PA+"Textile::set_uid", PA+"ParserState::retrieve_urls", PA+"ParserState::retrieve_tags", PA+"ParserState::replace_links"])
p("C06", "Line ending convention does not matter",
  "For every configuration and every non-blank text, parse(text) = parse(text with every CRLF or lone CR replaced by LF).",
  "every configuration and text",
  "Universal over texts with arbitrary mixes of line endings, through the whole pipeline.",
  [PA+"normalize_newlines", PA+"Textile::parse"])
p("C07", "Leading and trailing newlines do not matter",
  "For every configuration and non-blank text, adding any number of '\\n' before or after the text does not change the result of parse.",
  "every configuration, text, and number of added newlines",
  "Universal over texts and paddings.",
  [PA+"normalize_newlines", PA+"Textile::parse"])
p("C08", "Blanks on an otherwise empty line do not matter",
  "For every configuration and non-blank text, removing all spaces and tabs from the lines that contain nothing else does not change the result of parse.",
  "every configuration and text",
  "Universal over texts; the normalisation is regex based and interacts with overlapping blank lines.",
  [PA+"normalize_newlines"])
p("C09", "Plain words become one paragraph",
  "For every configuration with block tags enabled and every text made of ordinary words (letters without three consecutive capitals, spaces and commas, starting with a letter, and not with the word `notelist`, which is markup), parse(text) is `<p>` text `</p>` with nothing added, removed or changed.",
  "every text over the plain alphabet, every length, every configuration",
  "Dozens of regular expressions run over the text; absence of a false match for all texts cannot be tested exhaustively.",
  [PA+"ParserState::block", PA+"ParserState::graf", PA+"make_glyph_replacers", BL+"Block::new"])
p("C10", "Inline-only mode leaves plain words alone",
  "With set_block_tags(false), parse(text) = text for every text of ordinary words.",
  "every plain text, every configuration with block tags off",
  "Same as C09 for the other branch of parse.",
  [PA+"Textile::set_block_tags", PA+"Textile::parse"])
p("C11", "Headings",
  "For every N in 1..6 and every plain text t, parse(\"hN. \" + t) = \"<hN>\" + t + \"</hN>\" when the configuration is not lite.",
  "every level, every plain text, every non-lite configuration",
  "Universal over texts.",
  [PA+"ParserState::block", PA+"BLOCK_TAGS_RE_S", BL+"Block::new"])
p("C12", "Lite mode allows only paragraphs and blockquotes",
  "With set_lite(true), a block whose tag is not `p` or `bq` is not interpreted as that block (its marker stays in the text of a paragraph).",
  "every block tag, every content",
  "Universal over tags and contents; the documented set and the code's set must agree for all.",
  [PA+"Textile::set_lite", PA+"BLOCK_TAGS_LITE_RE_S"])
p("C13", "Code blocks are verbatim",
  "For every content t without a newline and not containing the parser's internal token, parse(\"bc. \" + t) is `<pre><code>`, then a string whose HTML entity decoding is exactly t and which contains no `<`, `>`, `\"`, `'`, then `</code></pre>`; markup inside t is not interpreted.",
  "every single-line content, every non-lite unrestricted configuration",
  "Arbitrary content, including arbitrary Textile and HTML markup, must pass untouched through all later stages.",
  [BL+"Block::new", HT+"encode_html", PA+"ParserState::shelve", PA+"ParserState::retrieve"])
p("C14", "notextile blocks are verbatim",
  "For every content t without a newline, without break tags and not containing the parser's internal token, parse(\"notextile. \" + t) = t in unrestricted mode.",
  "every single-line content",
  "Arbitrary content must pass untouched through all later stages.",
  [BL+"Block::new", PA+"ParserState::shelve", PA+"ParserState::retrieve"])
p("C15", "Comment blocks disappear",
  "For every content t without an empty line and not containing the parser's internal token, parse(\"###. \" + t) returns the empty string.",
  "every content, every non-lite configuration",
  "Arbitrary content must have no effect.",
  [BL+"Block::new", PA+"ParserState::block"])
p("C16", "Inline code shows what was typed",
  "For every t without '@' and newline, parse(\"@\" + t + \"@\") contains a `<code>` element whose text, after HTML entity decoding, is exactly t, and whose source contains no `<` or `>`.",
  "every content, every non-lite configuration (restricted or not)",
  "Arbitrary content, several interacting escaping passes.",
  [PA+"ParserState::code", HT+"encode_html", PA+"Textile::parse"])
p("C17", "HTML escaping is lossless and complete",
  "The escaping applied to code, titles, URLs and restricted input removes every special character and can be undone: decoding the output by the HTML rules gives the input back; escaping a concatenation is the concatenation of the escapings.",
  "every string, every combination of the two escaping options",
  "Universal over strings.",
  [HT+"encode_html", HT+"reverse_encode_html"])
p("C18", "Attribute values are well delimited and decode to the given value",
  "Every attribute value written into a generated tag is enclosed in quotes that do not occur inside, contains no `<` or `>`, and decodes (by the HTML rules) to the given value.",
  "every attribute value",
  "Universal over strings.",
  [HT+"quoteattr", HT+"join_html_attributes", HT+"generate_tag"])
p("C19", "Generated tags are well formed",
  "A generated element with a valid name starts with `<name`, lists only attributes with valid names, each once and in sorted order, and closes with the same name; an attribute cannot break out of its tag.",
  "every tag name, attribute list and content",
  "Universal over strings and lists.",
  [HT+"generate_tag", HT+"join_html_attributes", BL+"BlockHtmlAttributes"])
p("C20", "Attribute sets behave like a map",
  "Setting an attribute replaces the previous value of the same name, never produces duplicates, keeps the other attributes, and the written order is the sorted order whatever the insertion order; adding a CSS class keeps the classes already there.",
  "every sequence of insertions",
  "Histories of operations are unbounded.",
  [BL+"BlockHtmlAttributes::insert", BL+"BlockHtmlAttributes::insert_css_class"])
p("C21", "Restricted mode ignores style, class and id",
  "With set_restricted(true), for every attribute specification written by the user the resulting attributes contain no class and no id, and a style made only of the parser's own padding, text-align and vertical-align declarations.",
  "every attribute string, every element kind",
  "Universal over attribute strings.",
  [BL+"BlockAttributes::parse", PA+"Textile::set_restricted"])
p("C22", "Parsing attributes never fails",
  "For every attribute string accepted by the block, table, span, image and link grammars, evaluating the attributes returns a value (no panic).",
  "every attribute string",
  "Universal over strings; there are `unreachable!` branches guarded only by regexes.",
  [BL+"BlockAttributes::parse"])
p("C23", "parse never panics",
  "For every configuration and every text, parse(text) does not panic.",
  "every configuration and text",
  "Fuzzing samples; a proof or a concrete counterexample decides it.",
  [PA+"Textile::parse", HT+"reverse_encode_html", BL+"BlockAttributes::parse", PA+"insert_brs"])
p("C24", "parse always terminates",
  "For every configuration and every text, parse(text) returns after finitely many steps.",
  "every configuration and text",
  "Non-termination cannot be observed by a test; three unbounded loops are involved.",
  [PA+"ParserState::mark_start_of_links", PA+"ParserState::retrieve", PA+"ParserState::replace_links"])
p("C25", "Restricted mode escapes raw HTML",
  "With set_restricted(true), no `<` of the input reaches the output: every tag in the output is one the parser generates from Textile markup.",
  "every text, every restricted configuration",
  "A security property over all texts; tests cover a few attack strings.",
  [PA+"Textile::set_restricted", PA+"Textile::parse", PA+"ParserState::replace_links"])
p("C26", "Restricted mode: user text cannot leave an attribute value",
  "With set_restricted(true), user text placed into an attribute value (titles, acronym expansions, alt texts) never contains the quote that delimits the value.",
  "every text",
  "A security property over all texts.",
  [PA+"make_glyph_replacers", PA+"ParserState::code", PA+"ParserState::image"])
p("C27", "Only allowed URL schemes are linked",
  "Every link or image produced from Textile markup has a relative URL or a URL whose scheme is in the allowed list of the mode (restricted: http, https, ftp, mailto).",
  "every text, every URL parser behaviour",
  "Universal over texts and URLs.",
  [PA+"RESTRICTED_URL_SCHEMES", PA+"UNRESTRICTED_URL_SCHEMES", PA+"ParserState::replace_links", PA+"ParserState::image", PA+"ParserState::is_valid_url"])
p("C28", "set_rel applies to all links",
  "With set_rel(Some(v)) every `<a>` generated from a Textile link has rel=v; without it none has a rel attribute from the parser.",
  "every link markup",
  "Universal over link texts and URLs, including image links.",
  [PA+"Textile::set_rel", PA+"ParserState::replace_links", PA+"ParserState::image"])
p("C29", "Images can be disabled",
  "With set_images(false) image markup is never turned into an `<img>` tag and parse never asks for image sizes.",
  "every text, every configuration with images off",
  "Universal over texts.",
  [PA+"Textile::set_images", PA+"ParserState::image", PA+"ParserState::graf", PA+"ParserState::replace_links"])
p("C30", "No network access unless asked",
  "Unless set_getting_image_size(true) was called, the result of parse does not depend on the network (no request is made); with images disabled it does not either.",
  "every text, every network behaviour",
  "Universal over texts and over network behaviours.",
  [PA+"Textile::set_getting_image_size", PA+"get_image_size", PA+"ParserState::image"])
p("C31", "Image size probing reads at most 1 KiB and stops",
  "For every behaviour of the server (any chunking, errors at any point) the size probe reads at most 1024 bytes of body, terminates, and returns a size only if some prefix read so far is recognised.",
  "every sequence of read results",
  "Schedules of network reads are unbounded.",
  [PA+"get_image_size"])
p("C32", "Generated identifiers are unique",
  "During one parse call no two footnotes or notes get the same generated number: every allocation returns a number larger than all earlier ones.",
  "every text, every sequence of footnotes, notes and references",
  "Unbounded sequences of allocations spread over several functions.",
  [PA+"increment_link_index", PA+"footnote_ref", PA+"note_ref", PA+"parse_note_defs", BL+"Block::new"])
p("C33", "Placeholders are unique and never overwritten",
  "Each piece of text set aside during a parse call is stored under a key used for nothing else, and is never replaced later, so each placeholder is resolved to the text it stands for.",
  "every text",
  "Unbounded sequences of operations spread over the whole parser.",
  [PA+"ParserState::shelve", PA+"ParserState::shelve_url", PA+"ParserState::store_tags"])
p("C34", "The internal token never leaks from user input",
  "For every text, after the parser removes its internal token from the input, the remaining text does not contain the token, so users cannot forge placeholders.",
  "every text and every token value",
  "Universal over texts (including nested occurrences).",
  [PA+"Textile::parse", PA+"Textile::set_uid"])
p("C35", "Nesting of inline markup is bounded and restored",
  "Inline markup is expanded to at most five levels; deeper markup is left as text; and processing one element never changes the depth allowed to the next one.",
  "every text",
  "Unbounded recursion over arbitrary texts.",
  [PA+"ParserState::span", PA+"max_span_depth"])
p("C36", "Inline markup produces the right element",
  "For each of the ten inline markers m and every plain text t (no spaces at its ends, no full stop after `*`), parse(m + t + m) is the paragraph containing the corresponding element with text t; in a document of paragraphs, headings and quotations every marked part becomes its element and the rest of the text is unchanged.",
  "all markers, every plain text",
  "Universal over texts.",
  [PA+"ParserState::span", PA+"span_re", PA+"ParserState::retrieve_tags"])
p("C37", "Footnote references and definitions point at each other",
  "In a document with a reference `[n]` and a definition `fnn.`, the link of the reference targets the id of the definition, whatever the order of the two.",
  "every footnote number and surrounding text, both orders",
  "Universal over numbers and texts.",
  [PA+"ParserState::footnote_ref", BL+"Block::new"])
p("C38", "Note references and definitions point at each other",
  "In a document with a definition `note#label.` and references `[#label]`, the content of the note appears in the note list and every reference links to its id.",
  "every label and order of definition and references",
  "Universal over labels and orders.",
  [PA+"ParserState::note_ref", PA+"ParserState::parse_note_defs", PA+"ParserState::place_note_lists"])
p("C39", "Note lists contain only generated back links",
  "The back link characters written in a note list never form HTML markup.",
  "every start character and number of references",
  "The number of references is unbounded.",
  [PA+"make_back_ref_link", HT+"unescape"])
p("C40", "List markup yields balanced tags",
  "The tags generated for a list are balanced and properly nested.",
  "every list (any depth sequence, any kinds)",
  "Lists are unbounded in length and depth.",
  [PA+"ParserState::textile_lists"])
p("C41", "Ordered list numbering",
  "A list starting with `#n` has start=n, and a following list starting with `#_` continues with the number after the last shown item.",
  "every start number and list length",
  "Unbounded lengths and numbers.",
  [PA+"ParserState::textile_lists", PA+"ol_starts"])
p("C42", "Splitting loses nothing",
  "Splitting a text by a delimiter pattern yields pieces which, put back together with the delimiters, give the text; the captured delimiters appear between the pieces.",
  "every pattern and text",
  "Universal over patterns and texts; the iterator has a hidden state machine.",
  ["src/regextra.rs:split_with_capture", "src/regextra.rs:ReSplitWithCapture"])
p("C43", "Typographic replacement never touches tags",
  "Glyph replacement leaves every HTML tag of its input unchanged and in place.",
  "every text",
  "Universal over texts.",
  [PA+"ParserState::glyphs"])
p("C44", "Relative URLs keep their path",
  "A relative URL (one the URL library can resolve against a base) is written with its path exactly as given; only its query or fragment is normalised. A URL that cannot be resolved is written percent-encoded (letters, digits and `%` only, standing for the same characters), or, if that cannot be resolved either, as nothing.",
  "every URL text and URL parser behaviour",
  "Universal over URLs.",
  ["src/urlutils.rs:UrlBits", "src/urlutils.rs:UrlBits::to_string"])
p("C45", "Line break insertion",
  "In list items and table cells a break tag is inserted before a newline exactly when the newline is not followed by white space or `|` and not preceded by a closing item tag or a break tag; nothing else changes.",
  "every content",
  "Universal over contents, including non-ASCII text where byte offsets matter.",
  [PA+"ParserState::do_tag_br", PA+"insert_brs"])
p("C46", "Setters are independent",
  "Each setter changes only its own aspect: setters for different options commute, and the last call of a setter wins; options that were not set have their documented defaults.",
  "every configuration and sequence of setters",
  "Unbounded sequences of setter calls.",
  [PA+"Textile"])
p("C47", "set_raw_blocks changes the treatment of raw blocks",
  "Enabling raw blocks leaves paragraph blocks wrapped in an unknown tag unparsed; disabling it does not.",
  "every text",
  "Universal over texts: whether an option has any effect at all is a statement about all texts.",
  [PA+"Textile::set_raw_blocks", PA+"raw_block_enabled"])
p("C48", "URL bracket counters",
  "The counters used for trailing brackets of URLs behave like a partial map from the four bracket characters to numbers: reading returns the last value written, other counters are unaffected, decrementing stops at zero.",
  "every sequence of operations",
  "Unbounded sequences of operations.",
  ["src/charcounter.rs:CharCounter"])
p("C49", "Brackets and trailing punctuation of link URLs",
  "The characters split off the end of a link URL and the URL itself together make up the matched text, except for unmatched closing square brackets; the URL does not end with one of `!?:;.,`.",
  "every URL text",
  "Universal over URLs.",
  [PA+"ParserState::replace_links"])
p("C50", "Code blocks in restricted mode show what was typed",
  "With set_restricted(true), the text displayed for parse(\"bc. \" + t) is t.",
  "every content",
  "Universal over contents; involves two escaping passes.",
  [PA+"Textile::parse", BL+"Block::new", HT+"encode_html"])
p("C51", "Documents are rendered block by block",
  "For every document made of any number of paragraphs, headings and quotations with ordinary text (several lines each), and code blocks, preformatted blocks, notextile blocks and comments with arbitrary text, separated by empty lines, parse(text) is the concatenation of the elements of the blocks in order, with comments removed and arbitrary text displayed as typed (escaped once more in restricted mode).",
  "every such document, every configuration with block tags on and without sanitizer",
  "Unbounded number of blocks and arbitrary contents; blocks must not influence each other.",
  [PA+"Textile::parse", PA+"ParserState::block", BL+"Block::new", PA+"ParserState::graf", PA+"ParserState::shelve", PA+"ParserState::retrieve"])
p("C52", "Inline notextile is verbatim",
  "For every t on one line without `==`, parse(\"==\" + t + \"==\") is t in a paragraph, unchanged (escaped once in restricted mode).",
  "every text, every non-lite configuration with block tags on and without sanitizer",
  "Arbitrary content must pass every later stage unchanged.",
  [PA+"ParserState::no_textile", PA+"ParserState::shelve", PA+"ParserState::retrieve"])
p("C53", "Links",
  "A link `\"text\":url` becomes one `a` element with the text in it, whose href is the address that the URL parser makes of url (a relative address stays as it is), escaped as an attribute value, with rel exactly if set_rel was called; the text around it is not changed, and punctuation after the address is not part of it.",
  "every document with links among other inline elements, every URL parser behaviour",
  "Universal over texts, addresses, numbers and positions of links; the link passes several stages as a placeholder.",
  [PA+"ParserState::mark_start_of_links", PA+"ParserState::replace_links", PA+"ParserState::retrieve_urls", PA+"Textile::set_rel"])
p("C54", "Block attributes",
  "The attributes of a block — alignment, paddings, and in any order a group of classes and an identifier, a group of style declarations and a language — become exactly the class, id, lang and style attributes they stand for, in this order, the style being the declarations followed by the paddings and the alignment; in restricted mode classes, identifier and declarations are dropped and the rest is kept.",
  "every well formed list of attributes, every order of groups, both modes",
  "Universal over names, declarations, numbers of paddings and orders of groups.",
  [BL+"BlockAttributes::parse", BL+"BlockHtmlAttributes::to_string"])
p("C55", "Blocks with attributes in documents",
  "In every document of any number of paragraphs, headings, quotations, code, preformatted and verbatim blocks with attributes, mixed with lists and with inline markup and links in the texts, each block is rendered as its element with exactly the attributes written down, in order; the language of a code block becomes the class of the code element; the texts of code, preformatted and verbatim blocks are displayed as typed (escaped once more in restricted mode, which also drops classes, identifiers and declarations).",
  "every such document, every configuration with block tags on and without sanitizer",
  "Unbounded number of blocks and arbitrary contents; blocks must not influence each other.",
  [PA+"Textile::parse", PA+"ParserState::block", BL+"Block::new", BL+"BlockAttributes::parse", PA+"ParserState::graf"])
p("C56", "Footnotes in documents",
  "In every document of paragraphs, headings and paragraphs with attributes, all with any number of references to footnotes, and of footnotes with or without a link back, mixed with the blocks of C55, each reference is rendered as a link in a sup element (with an identifier of its own if it is the first to its footnote), each footnote as a paragraph with class footnote and an identifier, and the numbers in the identifiers are given in the order of the first mention.",
  "every such document, every configuration with block tags on and without sanitizer",
  "Unbounded number of blocks and references; the numbers depend on everything before.",
  [PA+"ParserState::footnote_ref", PA+"ParserState::block", BL+"Block::new", PA+"Textile::parse"])
p("C57", "Tables in documents",
  "In every document of tables and of the blocks of C56, in any order, each table is rendered as a table element with its sections and rows, each row as a tr element with one td or th element per cell, each cell with its text; sections come first, then the rows that belong to none.",
  "every such document, every configuration with block tags on, not lite, and without sanitizer",
  "Unbounded number of tables, sections, rows and cells, with arbitrary texts.",
  [TA+"process_table", PA+"ParserState::graf", PA+"Textile::parse"])
p("C58", "Rows keep their order",
  "The rows of a table appear in the output in the order in which they are written.",
  "every document with tables",
  "Depends on the interplay of all rows and sections of a table of any size.",
  [TA+"process_table"])
p("C59", "Tables lose no text",
  "The words in a block with a table in it, inside or outside of the cells, appear in the output.",
  "every document with tables, every cell",
  "Universal over tables of any size and over texts around them.",
  [TA+"process_table", PA+"ParserState::table"])
p("C60", "Typographic signs in documents",
  "In every document of paragraphs and headings with quotation marks, apostrophes, decades like '80, dots, dashes, ampersands, character references and marks in brackets like (c) and [1/2], mixed with the blocks of C57, each sign is rendered as the character reference it stands for and everything else is unchanged; existing character references stay as they are, and a bare ampersand becomes `&amp;` exactly once, also in restricted mode.",
  "every such document, every configuration with block tags on and without sanitizer",
  "Twenty-two patterns are applied one after the other to the whole text, and each could hit the output of an earlier one or the text between.",
  [PA+"ParserState::glyphs", PA+"ParserState::graf", PA+"Textile::parse"])
p("C61", "Apostrophes",
  "An apostrophe between two letters or digits is rendered as the apostrophe `&#8217;`.",
  "every text with an apostrophe between letters or digits",
  "Universal over texts.",
  [PA+"ParserState::glyphs"])
p("C62", "Words next to marks are kept",
  "The words before and after typographic signs appear in the output, in order.",
  "every document with signs",
  "Universal over texts and signs; other patterns can take a sign and the word after it for something else.",
  [PA+"ParserState::glyphs", PA+"ParserState::get_refs"])
p("C63", "Images are rendered with their attributes",
  "Every image in a paragraph, heading or quotation becomes an img element with its address, alternative text, title, classes, style, language and alignment, inside a link if one is given; alignment is a class or the attribute align as configured; the text around it is unchanged.",
  "every document of blocks with images, in any order and number, with any mix of alignment, attributes, title and link",
  "Universal over documents, images and settings; the address goes through two tables of placeholders.",
  [PA+"ParserState::image", PA+"ParserState::f_image", PA+"ParserState::shelve_url", PA+"ParserState::retrieve"])
p("C64", "The alternative text of an image is its title",
  "The value of alt, decoded by the rules of HTML, is the title written in the source, and that of src is the address.",
  "every document with images with titles, in every mode",
  "Universal over titles and modes; the title passes several escapings.",
  [PA+"ParserState::f_image", HT+"generate_tag", HT+"encode_html"])
p("C65", "Endnotes are rendered as references and a list",
  "Every reference becomes a link with the number of its note and an identifier of its own; definitions leave nothing in their place; the list has one item for every note referred to, with its attributes, the links back to its references as the definition asks, and its text, or a remark that it is undefined, wherever in the document references and definitions are.",
  "every document of blocks with references to notes, definitions and a list of notes, in any order and number",
  "Universal over documents; the state of the notes goes through all blocks.",
  [PA+"ParserState::note_ref", PA+"ParserState::parse_note_defs", PA+"ParserState::place_note_lists", PA+"make_back_ref_link"])
p("C66", "The list of notes is in the order of the notes",
  "The n-th item of the list of notes is the note that the text shows as number n, and the notes are numbered in the order of their first references.",
  "every document with references to notes and a list",
  "Universal over the number of notes; the tests have few notes.",
  [PA+"ParserState::place_note_lists"])
p("C67", "Extended blocks extend to the next block with a tag",
  "An extended block (a tag with two full stops) takes all following texts up to the next block with a tag or the end of the document: code, preformatted and verbatim blocks become one element with all of them, paragraphs and headings one element each with the same attributes, quotations one blockquote with a paragraph each. What comes after is not affected.",
  "every document of extended and other blocks, in any order and number, with any number of texts in each",
  "Universal over documents; the state of the extended block goes through all blocks.",
  [PA+"ParserState::block", BL+"Block::new"])
p("C68", "Extended code blocks keep their text",
  "The text of the code element of an extended code block, decoded, is exactly the text of the source from the tag to the next block with a tag, with all its blank lines.",
  "every document with extended code blocks, every text in them",
  "Universal over texts and their number.",
  [PA+"ParserState::block", BL+"Block::new", HT+"encode_html"])
p("C69", "Tables are rendered with all attributes",
  "The attributes of a table, of its caption, sections, rows and cells become HTML attributes of their elements: classes, identifiers, languages, horizontal and vertical alignment, numbers of columns and rows, the summary of the table.",
  "every document of tables with attributes and other blocks, in any order and number, in every mode",
  "Universal over tables, attributes and documents.",
  [TA+"process_table", TA+"process_caption", BL+"BlockAttributes::parse"])
p("C70", "The attributes of a table cell are kept",
  "A cell becomes an element with its text and an HTML attribute for every attribute that is written: colspan, rowspan, class, id, lang, horizontal and vertical alignment.",
  "every table, every cell, every combination of attributes",
  "Universal over combinations; most tests have one attribute.",
  [TA+"process_table", BL+"BlockAttributes::parse"])
p("C71", "Every cell of a table becomes a cell element",
  "The cells of every row come out as cell elements with their texts, in order, whatever their attributes.",
  "every table, every row",
  "Universal over tables and attributes.",
  [TA+"process_table", TA+"process_caption"])
p("C72", "Definition lists are rendered as lists of terms with definitions",
  "Every item `- term := definition` becomes a `<dt>` with the term and a `<dd>` with the definition, an item `- term` a `<dt>` alone, in a `<dl>` element; attributes after the dash go to the `<dt>`.",
  "every document of definition lists with any number of items and attributes and other blocks, in any order and number, in every mode but lite",
  "Universal over lists, attributes and documents.",
  [PA+"ParserState::redcloth_list", BL+"BlockAttributes::parse"])
p("C73", "No term or definition of a definition list is lost",
  "The terms come out as `<dt>` elements in their order, each followed by the `<dd>` of its definition if it has one.",
  "every definition list, every item",
  "Universal over lists and texts of items.",
  [PA+"ParserState::redcloth_list"])
p("C74", "The attributes of a term belong to its element alone",
  "The `<dt>` of a term has the class, identifier and language written for it, and the `<dl>` of the list does not have them.",
  "every definition list, every item, every combination of attributes",
  "Universal over combinations of attributes and positions in the list.",
  [PA+"ParserState::redcloth_list", BL+"BlockAttributes::parse"])
p("C75", "Words in capitals get an element of their own",
  "A word of three or more capitals becomes a span of class caps, and one with an explanation in brackets an abbr element (acronym in XHTML) with the explanation as its title; the text around them is unchanged.",
  "every document of paragraphs and headings with words in capitals and acronyms and other blocks, in any order and number, in every mode",
  "Universal over texts and documents.",
  [PA+"make_glyph_replacers", PA+"ParserState::glyphs"])
p("C76", "Every word in capitals is marked",
  "The words of three or more capitals of a text come out in order, each in a span element of class caps.",
  "every text, every word of three or more capitals in it",
  "Universal over texts and positions of the words.",
  [PA+"make_glyph_replacers", PA+"ParserState::glyphs"])
p("C77", "The explanation of an acronym is its title",
  "For an acronym with an explanation in brackets, the value of the title attribute is the explanation.",
  "every acronym, every explanation, in every mode",
  "Universal over explanations; markup in them goes through other stages first.",
  [PA+"make_glyph_replacers", PA+"ParserState::span"])
p("C78", "Marked parts can have classes and identifiers",
  "A marked part with a group `(classes#identifier)` behind its marker becomes an element with these as its class and id attributes; the text around it is unchanged, and in restricted mode the attributes are left out.",
  "every document of paragraphs and headings with any number of such parts and other blocks, in any order and number, in every mode",
  "Universal over texts, names and documents.",
  [PA+"ParserState::span", BL+"BlockAttributes::parse"])
p("C79", "The classes of a marked part are kept",
  "The marked parts of a text come out in order, each in an element with the classes and the identifier written in the group.",
  "every text with marked parts, every group in brackets",
  "Universal over texts and groups.",
  [PA+"ParserState::span", BL+"BlockAttributes::parse"])
p("C80", "In restricted mode, authors cannot give classes to parts of a text",
  "In restricted mode, the elements of marked parts have no class and no id attribute, whatever groups are written for them, and their texts are kept.",
  "every text with marked parts, every group in brackets, in restricted mode",
  "Universal over texts and groups.",
  [PA+"ParserState::span", BL+"BlockAttributes::parse"])
p("C81", "Quotations can name the address of their source",
  "A quotation `bq.:address text` becomes a blockquote element whose cite attribute is the address as resolved by the URL library, with the text and its attributes as in a quotation without address.",
  "every document of such quotations, with attributes and marked parts, and other blocks, in any order and number, in every mode",
  "Universal over texts, addresses and documents.",
  [BL+"Block::new", PA+"ParserState::unrestrict_url", PA+"ParserState::parse_blocks"])
p("C82", "The address of the source is kept",
  "The address written behind the tag of a block is in the output as the value of a cite attribute: the value ends at the quotation mark written to end it, and a reader of the HTML gets the resolved address from it.",
  "every text with such blocks, every address",
  "Universal over texts and addresses.",
  [BL+"Block::new", PA+"ParserState::unrestrict_url", HT+"encode_html"])
p("C83", "Links with attributes and titles",
  "A link `\"(class#id){style}[lang]text(title)\":address` becomes one `a` element around its text whose attributes, sorted by name, are the class, address, identifier, language, relation, style and title; in restricted mode class, identifier and style are dropped.",
  "every document with such links, groups in any order, in paragraphs, headings and quotations, and other blocks, in any order and number, in every mode",
  "Universal over texts, attributes, titles and documents; link and title pass several stages as placeholders, one within the other.",
  [PA+"ParserState::replace_links", PA+"ParserState::mark_start_of_links", BL+"BlockAttributes::parse", PA+"ParserState::shelve"])
p("C84", "The title of a link is kept",
  "The title in brackets at the end of the text of a link is the value of the title attribute of its element: the value ends at the quotation mark written to end it, and a reader of the HTML gets the title from it.",
  "every text with such links, every title",
  "Universal over texts and titles.",
  [PA+"ParserState::replace_links", HT+"encode_html"])
p("C85", "The class and identifier of a link are kept",
  "In unrestricted mode, the class and identifier before the text of a link are those of its element.",
  "every text with such links, every class and identifier",
  "Universal over texts and names.",
  [PA+"ParserState::replace_links", BL+"BlockAttributes::parse"])
p("C86", "Links in restricted mode have no class, identifier or style",
  "In restricted mode the element of a link has its address, and apart from it at most a language, a relation and a title, whose values end at the quotation marks written to end them.",
  "every text with links, whatever is written before their text, in restricted mode",
  "Universal over texts and attributes.",
  [PA+"ParserState::replace_links", BL+"BlockAttributes::parse", HT+"quoteattr"])
p("C87", "HTML rules and images, and indented texts",
  "A block of HTML tags of rules and images is in the output as it was written; a block of text that starts with a space is in the output with its links replaced by `a` elements, without a paragraph around it and without break tags at its newlines; blocks before and after are not affected.",
  "every document with such blocks, texts with links, and other blocks, in any order and number, in every mode",
  "Universal over tags, texts and documents; the tags pass all later stages as placeholders.",
  [PA+"ParserState::parse_blocks", PA+"ParserState::shelve", PA+"ParserState::graf", HT+"has_raw_text"])
p("C88", "HTML rules, images and line breaks on a line of their own are kept",
  "In unrestricted mode, HTML tags of rules, images and line breaks on a line of their own are in the output as they were written, with an empty line or nothing before and after them, so that they are not in a paragraph.",
  "every document with such lines, whatever attributes the tags have",
  "Universal over tags and documents.",
  [PA+"ParserState::parse_blocks", PA+"ParserState::shelve"])
p("C89", "Indented texts are kept",
  "A block of words that starts with a space is in the output as it was written, with an empty line or nothing before and after it: it is not in a paragraph and has no break tags.",
  "every document with such blocks, any number of spaces, words and lines",
  "Universal over texts and documents.",
  [PA+"ParserState::parse_blocks", PA+"ParserState::graf"])
p("C90", "Marked parts without blocks",
  "With `set_block_tags(false)`, marked parts of a text become elements with their classes and identifiers (without them in restricted mode); everything else, newlines and signs of blocks included, is in the output as it was written, without paragraphs and break tags.",
  "every text with any number of marked parts, in every mode",
  "Universal over texts, markers, classes and options.",
  [PA+"Textile::parse", PA+"ParserState::span"])
p("C91", "With and without block tags",
  "What `parse` returns for a text that does not start like another block is a paragraph of what it returns for the text with `set_block_tags(false)`, with a break tag before each newline.",
  "every such text, in every mode",
  "Relates two runs of the parser with different options on all texts.",
  [PA+"Textile::parse", PA+"ParserState::graf", PA+"ParserState::span"])
p("C92", "A link with `$` as its text shows its address without the scheme",
  "A link with `$` as its text becomes an `a` element with its address whose content is the address as written, without the scheme, its colon and the two slashes after it.",
  "every text with such links, with any attributes and titles, in every mode",
  "Universal over texts and addresses.",
  [PA+"make_url_readable", PA+"ParserState::replace_links"])
p("C93", "Restricted mode gives only Textile's own elements and attributes",
  "With set_restricted(true), what `parse` returns consists of elements with names that Textile uses, properly nested, break tags, images and text without `<`; all attributes have names that Textile uses (none is for event handlers), and their values contain neither the quote that closes them nor `<`.",
  "every text, in particular with any text in code, verbatim blocks and titles",
  "A security property over all texts; tests cover a few attack strings.",
  [PA+"Textile::set_restricted", PA+"Textile::parse", HT+"encode_html", HT+"generate_tag"])
p("C94", "Without tags in the text there are only Textile's own elements",
  "If there is no `<` in a text, what `parse` returns for it consists of Textile's own elements, properly nested and with Textile's own attributes, as in C93, in every mode.",
  "every text without `<`, in every mode",
  "Universal over texts and options.",
  [PA+"Textile::parse", PA+"ParserState::graf"])
p("C95", "Documents are converted piece by piece",
  "If a text is followed by another one after at least one empty line, what `parse` returns is what it returns for the first, the same newlines, and what it returns for the second.",
  "every two texts, and every number of empty lines between them",
  "Universal over pairs of texts; relates three calls of `parse`.",
  [PA+"Textile::parse", PA+"ParserState::parse_blocks"])
p("C96", "The kind of HTML changes only line breaks, acronyms and the alignment of images",
  "What `parse` returns with `set_html_kind(HtmlKind::XHTML)` is what it returns with `set_html_kind(HtmlKind::HTML5)`, except that line breaks are `<br />` instead of `<br>`, the element of acronyms is `acronym` instead of `abbr`, and images are aligned by the attribute `align` instead of a class `align-...`.",
  "every text and all other options",
  "Universal over texts; relates two calls of `parse` with different options.",
  [PA+"Textile::set_html_kind", PA+"ParserState::glyphs", PA+"ParserState::f_image"])
p("C97", "The random identifier of a parser does not change the rest of the output",
  "Two parsers with the same options but different identifiers, which are random unless given, return the same text from `parse`, except that the identifier of the one is where that of the other is.",
  "every text and any two identifiers",
  "Universal over texts and identifiers; tests fix the identifier.",
  [PA+"Textile::default", PA+"Textile::set_uid", PA+"ParserState::new"])
p("C98", "Lite mode does not change documents without what it leaves out",
  "A text that uses nothing that lite mode leaves out, that is only paragraphs, quotations and code blocks, without lists, tables, and code or verbatim text in paragraphs, is converted to the same HTML with `set_lite(true)` and with `set_lite(false)`.",
  "every text of this kind and all other options",
  "Universal over texts; relates two calls of `parse` with different options.",
  [PA+"Textile::set_lite", PA+"ParserState::graf", PA+"BLOCK_TAGS_LITE_RE_S"])
p("C99", "Without images, asking for their sizes makes no difference",
  "After `set_images(false)`, `set_getting_image_size` has no influence on what `parse` returns.",
  "every text, all other options, and whatever the sizes of images are",
  "Universal over texts; relates calls of `parse` with different options.",
  [PA+"Textile::set_images", PA+"Textile::set_getting_image_size", PA+"ParserState::f_image"])
p("C100", "Inline mode ignores the options for blocks, links and images",
  "After `set_block_tags(false)`, none of `set_lite`, `set_images`, `set_getting_image_size`, `set_rel` and `set_raw_blocks` has any influence on what `parse` returns.",
  "every text, all other options, and every sequence of such calls",
  "Universal over texts and sequences of calls; relates calls of `parse` with different options.",
  [PA+"Textile::set_block_tags", PA+"Textile::parse"])
p("C101", "Inline mode makes no links, images or notes",
  "After `set_block_tags(false)`, the only elements that `parse` makes and stores are those of inline markup (`strong`, `b`, `cite`, `em`, `i`, `del`, `span`, `ins`, `sub`, `sup`): no links, images, notes or footnotes, and no size of an image is asked for.",
  "every text and all other options",
  "Universal over texts and options.",
  [PA+"Textile::set_block_tags", PA+"Textile::parse", PA+"ParserState::span"])
p("C102", "Restricted mode: the tags of inline markup have only harmless attributes",
  "After `set_restricted(true)`, every tag of inline markup that `parse` makes has no `class` and no `id`, a `style` only of the padding and alignment declarations of the parser itself, and attribute values that are delimited by quotation marks not occurring in them and contain no `<` or `>`.",
  "every text and all other options",
  "Universal over texts and options.",
  [PA+"Textile::set_restricted", PA+"Textile::parse", PA+"ParserState::span"])
p("C103", "Restricted mode: the tags of links have only harmless attributes",
  "After `set_restricted(true)`, every link that `parse` makes of link markup has, besides its address, title and `rel`, no `class` and no `id`, a `style` only of the padding and alignment declarations of the parser itself, and attribute values that are delimited by quotation marks not occurring in them and contain no `<` or `>`. The address and the title are meant as the placeholders that stand for them when the link is made.",
  "every text and all other options",
  "Universal over texts and options.",
  [PA+"Textile::set_restricted", PA+"Textile::parse", PA+"ParserState::links"])
with open(os.path.join(os.path.dirname(__file__), "..", "properties.jsonl"), "w") as f:
    for x in P:
        f.write(json.dumps(x, ensure_ascii=False) + "\n")
print(len(P))
