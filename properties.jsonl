{"id": "C01", "title": "Blank input is returned unchanged", "statement": "For every configuration of a Textile value (all setters, sanitizer included) and every text made only of white space (or empty), parse(text) returns exactly text.", "quantifier": "every configuration, every whitespace-only text", "why_tests_cant": "Whitespace-only texts are infinitely many (any mix of Unicode white space) and so are configurations.", "anchors": ["src/parser.rs:Textile::parse"]}
{"id": "C02", "title": "Output never ends with a newline", "statement": "For every configuration and every text that is not blank, if parse(text) returns, the returned string does not end with '\\n'.", "quantifier": "every configuration (any sanitizer function), every non-blank text", "why_tests_cant": "The last step runs after an arbitrary sanitizer and arbitrary markup; only a proof covers all of them.", "anchors": ["src/parser.rs:Textile::parse"]}
{"id": "C03", "title": "Every line break tag is followed by a newline", "statement": "For every configuration and non-blank text, in the string returned by parse every occurrence of `<br>` or `<br />` is immediately followed by '\\n' or is at the very end of the output.", "quantifier": "every configuration, every text, every occurrence in the output", "why_tests_cant": "Occurrences can come from markup, raw HTML, code, or the sanitizer; a test sees only some of them.", "anchors": ["src/parser.rs:Textile::parse", "src/parser.rs:BR_PATTERN"]}
{"id": "C04", "title": "The sanitizer sees everything", "statement": "When a sanitizer is configured, parse(text) is obtained from sanitize(body) only by inserting '\\n' directly after break tags, rewriting break tags to the configured flavour, and dropping trailing newlines, where body is what the same configuration without sanitizer computes before that step. No unsanitized user text can be added afterwards.", "quantifier": "every sanitizer function, configuration and text", "why_tests_cant": "Needs to hold for every sanitizer behaviour and every text.", "anchors": ["src/parser.rs:Textile::parse", "src/parser.rs:Textile::set_sanitize", "src/parser.rs:Textile::adjust_sanitizer"]}
{"id": "C05", "title": "parse does not depend on earlier calls", "statement": "For every Textile value and every sequence of earlier parse calls on it, parse(text) returns what a freshly built Textile value with the same settings returns.", "quantifier": "every history of calls (parse calls and setters interleaved)", "why_tests_cant": "The value carries a hidden regex cache across calls; tests exercise a handful of histories.", "anchors": ["src/parser.rs:regex_cache", "src/parser.rs:Textile::parse", "src/parser.rs:Textile::set_uid", "src/parser.rs:ParserState::retrieve_urls", "src/parser.rs:ParserState::retrieve_tags", "src/parser.rs:ParserState::replace_links"]}
{"id": "C06", "title": "Line ending convention does not matter", "statement": "For every configuration and every non-blank text, parse(text) = parse(text with every CRLF or lone CR replaced by LF).", "quantifier": "every configuration and text", "why_tests_cant": "Universal over texts with arbitrary mixes of line endings, through the whole pipeline.", "anchors": ["src/parser.rs:normalize_newlines", "src/parser.rs:Textile::parse"]}
{"id": "C07", "title": "Leading and trailing newlines do not matter", "statement": "For every configuration and non-blank text, adding any number of '\\n' before or after the text does not change the result of parse.", "quantifier": "every configuration, text, and number of added newlines", "why_tests_cant": "Universal over texts and paddings.", "anchors": ["src/parser.rs:normalize_newlines", "src/parser.rs:Textile::parse"]}
{"id": "C08", "title": "Blanks on an otherwise empty line do not matter", "statement": "For every configuration and non-blank text, removing all spaces and tabs from the lines that contain nothing else does not change the result of parse.", "quantifier": "every configuration and text", "why_tests_cant": "Universal over texts; the normalisation is regex based and interacts with overlapping blank lines.", "anchors": ["src/parser.rs:normalize_newlines"]}
{"id": "C09", "title": "Plain words become one paragraph", "statement": "For every configuration with block tags enabled and every text made of ordinary words (letters without three consecutive capitals, spaces and commas, starting with a letter, and not with the word `notelist`, which is markup), parse(text) is `<p>` text `</p>` with nothing added, removed or changed.", "quantifier": "every text over the plain alphabet, every length, every configuration", "why_tests_cant": "Dozens of regular expressions run over the text; absence of a false match for all texts cannot be tested exhaustively.", "anchors": ["src/parser.rs:ParserState::block", "src/parser.rs:ParserState::graf", "src/parser.rs:make_glyph_replacers", "src/block.rs:Block::new"]}
{"id": "C10", "title": "Inline-only mode leaves plain words alone", "statement": "With set_block_tags(false), parse(text) = text for every text of ordinary words.", "quantifier": "every plain text, every configuration with block tags off", "why_tests_cant": "Same as C09 for the other branch of parse.", "anchors": ["src/parser.rs:Textile::set_block_tags", "src/parser.rs:Textile::parse"]}
{"id": "C11", "title": "Headings", "statement": "For every N in 1..6 and every plain text t, parse(\"hN. \" + t) = \"<hN>\" + t + \"</hN>\" when the configuration is not lite.", "quantifier": "every level, every plain text, every non-lite configuration", "why_tests_cant": "Universal over texts.", "anchors": ["src/parser.rs:ParserState::block", "src/parser.rs:BLOCK_TAGS_RE_S", "src/block.rs:Block::new"]}
{"id": "C12", "title": "Lite mode allows only paragraphs and blockquotes", "statement": "With set_lite(true), a block whose tag is not `p` or `bq` is not interpreted as that block (its marker stays in the text of a paragraph).", "quantifier": "every block tag, every content", "why_tests_cant": "Universal over tags and contents; the documented set and the code's set must agree for all.", "anchors": ["src/parser.rs:Textile::set_lite", "src/parser.rs:BLOCK_TAGS_LITE_RE_S"]}
{"id": "C13", "title": "Code blocks are verbatim", "statement": "For every content t without a newline and not containing the parser's internal token, parse(\"bc. \" + t) is `<pre><code>`, then a string whose HTML entity decoding is exactly t and which contains no `<`, `>`, `\"`, `'`, then `</code></pre>`; markup inside t is not interpreted.", "quantifier": "every single-line content, every non-lite unrestricted configuration", "why_tests_cant": "Arbitrary content, including arbitrary Textile and HTML markup, must pass untouched through all later stages.", "anchors": ["src/block.rs:Block::new", "src/htmltools.rs:encode_html", "src/parser.rs:ParserState::shelve", "src/parser.rs:ParserState::retrieve"]}
{"id": "C14", "title": "notextile blocks are verbatim", "statement": "For every content t without a newline, without break tags and not containing the parser's internal token, parse(\"notextile. \" + t) = t in unrestricted mode.", "quantifier": "every single-line content", "why_tests_cant": "Arbitrary content must pass untouched through all later stages.", "anchors": ["src/block.rs:Block::new", "src/parser.rs:ParserState::shelve", "src/parser.rs:ParserState::retrieve"]}
{"id": "C15", "title": "Comment blocks disappear", "statement": "For every content t without an empty line and not containing the parser's internal token, parse(\"###. \" + t) returns the empty string.", "quantifier": "every content, every non-lite configuration", "why_tests_cant": "Arbitrary content must have no effect.", "anchors": ["src/block.rs:Block::new", "src/parser.rs:ParserState::block"]}
{"id": "C16", "title": "Inline code shows what was typed", "statement": "For every t without '@' and newline, parse(\"@\" + t + \"@\") contains a `<code>` element whose text, after HTML entity decoding, is exactly t, and whose source contains no `<` or `>`.", "quantifier": "every content, every non-lite configuration (restricted or not)", "why_tests_cant": "Arbitrary content, several interacting escaping passes.", "anchors": ["src/parser.rs:ParserState::code", "src/htmltools.rs:encode_html", "src/parser.rs:Textile::parse"]}
{"id": "C17", "title": "HTML escaping is lossless and complete", "statement": "The escaping applied to code, titles, URLs and restricted input removes every special character and can be undone: decoding the output by the HTML rules gives the input back; escaping a concatenation is the concatenation of the escapings.", "quantifier": "every string, every combination of the two escaping options", "why_tests_cant": "Universal over strings.", "anchors": ["src/htmltools.rs:encode_html", "src/htmltools.rs:reverse_encode_html"]}
{"id": "C18", "title": "Attribute values are well delimited and decode to the given value", "statement": "Every attribute value written into a generated tag is enclosed in quotes that do not occur inside, contains no `<` or `>`, and decodes (by the HTML rules) to the given value.", "quantifier": "every attribute value", "why_tests_cant": "Universal over strings.", "anchors": ["src/htmltools.rs:quoteattr", "src/htmltools.rs:join_html_attributes", "src/htmltools.rs:generate_tag"]}
{"id": "C19", "title": "Generated tags are well formed", "statement": "A generated element with a valid name starts with `<name`, lists only attributes with valid names, each once and in sorted order, and closes with the same name; an attribute cannot break out of its tag.", "quantifier": "every tag name, attribute list and content", "why_tests_cant": "Universal over strings and lists.", "anchors": ["src/htmltools.rs:generate_tag", "src/htmltools.rs:join_html_attributes", "src/block.rs:BlockHtmlAttributes"]}
{"id": "C20", "title": "Attribute sets behave like a map", "statement": "Setting an attribute replaces the previous value of the same name, never produces duplicates, keeps the other attributes, and the written order is the sorted order whatever the insertion order; adding a CSS class keeps the classes already there.", "quantifier": "every sequence of insertions", "why_tests_cant": "Histories of operations are unbounded.", "anchors": ["src/block.rs:BlockHtmlAttributes::insert", "src/block.rs:BlockHtmlAttributes::insert_css_class"]}
{"id": "C21", "title": "Restricted mode ignores style, class and id", "statement": "With set_restricted(true), for every attribute specification written by the user the resulting attributes contain no class and no id, and a style made only of the parser's own padding, text-align and vertical-align declarations.", "quantifier": "every attribute string, every element kind", "why_tests_cant": "Universal over attribute strings.", "anchors": ["src/block.rs:BlockAttributes::parse", "src/parser.rs:Textile::set_restricted"]}
{"id": "C22", "title": "Parsing attributes never fails", "statement": "For every attribute string accepted by the block, table, span, image and link grammars, evaluating the attributes returns a value (no panic).", "quantifier": "every attribute string", "why_tests_cant": "Universal over strings; there are `unreachable!` branches guarded only by regexes.", "anchors": ["src/block.rs:BlockAttributes::parse"]}
{"id": "C23", "title": "parse never panics", "statement": "For every configuration and every text, parse(text) does not panic.", "quantifier": "every configuration and text", "why_tests_cant": "Fuzzing samples; a proof or a concrete counterexample decides it.", "anchors": ["src/parser.rs:Textile::parse", "src/htmltools.rs:reverse_encode_html", "src/block.rs:BlockAttributes::parse", "src/parser.rs:insert_brs"]}
{"id": "C24", "title": "parse always terminates", "statement": "For every configuration and every text, parse(text) returns after finitely many steps.", "quantifier": "every configuration and text", "why_tests_cant": "Non-termination cannot be observed by a test; three unbounded loops are involved.", "anchors": ["src/parser.rs:ParserState::mark_start_of_links", "src/parser.rs:ParserState::retrieve", "src/parser.rs:ParserState::replace_links"]}
{"id": "C25", "title": "Restricted mode escapes raw HTML", "statement": "With set_restricted(true), no `<` of the input reaches the output: every tag in the output is one the parser generates from Textile markup.", "quantifier": "every text, every restricted configuration", "why_tests_cant": "A security property over all texts; tests cover a few attack strings.", "anchors": ["src/parser.rs:Textile::set_restricted", "src/parser.rs:Textile::parse", "src/parser.rs:ParserState::replace_links"]}
{"id": "C26", "title": "Restricted mode: user text cannot leave an attribute value", "statement": "With set_restricted(true), user text placed into an attribute value (titles, acronym expansions, alt texts) never contains the quote that delimits the value.", "quantifier": "every text", "why_tests_cant": "A security property over all texts.", "anchors": ["src/parser.rs:make_glyph_replacers", "src/parser.rs:ParserState::code", "src/parser.rs:ParserState::image"]}
{"id": "C27", "title": "Only allowed URL schemes are linked", "statement": "Every link or image produced from Textile markup has a relative URL or a URL whose scheme is in the allowed list of the mode (restricted: http, https, ftp, mailto).", "quantifier": "every text, every URL parser behaviour", "why_tests_cant": "Universal over texts and URLs.", "anchors": ["src/parser.rs:RESTRICTED_URL_SCHEMES", "src/parser.rs:UNRESTRICTED_URL_SCHEMES", "src/parser.rs:ParserState::replace_links", "src/parser.rs:ParserState::image", "src/parser.rs:ParserState::is_valid_url"]}
{"id": "C28", "title": "set_rel applies to all links", "statement": "With set_rel(Some(v)) every `<a>` generated from a Textile link has rel=v; without it none has a rel attribute from the parser.", "quantifier": "every link markup", "why_tests_cant": "Universal over link texts and URLs, including image links.", "anchors": ["src/parser.rs:Textile::set_rel", "src/parser.rs:ParserState::replace_links", "src/parser.rs:ParserState::image"]}
{"id": "C29", "title": "Images can be disabled", "statement": "With set_images(false) image markup is never turned into an `<img>` tag and parse never asks for image sizes.", "quantifier": "every text, every configuration with images off", "why_tests_cant": "Universal over texts.", "anchors": ["src/parser.rs:Textile::set_images", "src/parser.rs:ParserState::image", "src/parser.rs:ParserState::graf", "src/parser.rs:ParserState::replace_links"]}
{"id": "C30", "title": "No network access unless asked", "statement": "Unless set_getting_image_size(true) was called, the result of parse does not depend on the network (no request is made); with images disabled it does not either.", "quantifier": "every text, every network behaviour", "why_tests_cant": "Universal over texts and over network behaviours.", "anchors": ["src/parser.rs:Textile::set_getting_image_size", "src/parser.rs:get_image_size", "src/parser.rs:ParserState::image"]}
{"id": "C31", "title": "Image size probing reads at most 1 KiB and stops", "statement": "For every behaviour of the server (any chunking, errors at any point) the size probe reads at most 1024 bytes of body, terminates, and returns a size only if some prefix read so far is recognised.", "quantifier": "every sequence of read results", "why_tests_cant": "Schedules of network reads are unbounded.", "anchors": ["src/parser.rs:get_image_size"]}
{"id": "C32", "title": "Generated identifiers are unique", "statement": "During one parse call no two footnotes or notes get the same generated number: every allocation returns a number larger than all earlier ones.", "quantifier": "every text, every sequence of footnotes, notes and references", "why_tests_cant": "Unbounded sequences of allocations spread over several functions.", "anchors": ["src/parser.rs:increment_link_index", "src/parser.rs:footnote_ref", "src/parser.rs:note_ref", "src/parser.rs:parse_note_defs", "src/block.rs:Block::new"]}
{"id": "C33", "title": "Placeholders are unique and never overwritten", "statement": "Each piece of text set aside during a parse call is stored under a key used for nothing else, and is never replaced later, so each placeholder is resolved to the text it stands for.", "quantifier": "every text", "why_tests_cant": "Unbounded sequences of operations spread over the whole parser.", "anchors": ["src/parser.rs:ParserState::shelve", "src/parser.rs:ParserState::shelve_url", "src/parser.rs:ParserState::store_tags"]}
{"id": "C34", "title": "The internal token never leaks from user input", "statement": "For every text, after the parser removes its internal token from the input, the remaining text does not contain the token, so users cannot forge placeholders.", "quantifier": "every text and every token value", "why_tests_cant": "Universal over texts (including nested occurrences).", "anchors": ["src/parser.rs:Textile::parse", "src/parser.rs:Textile::set_uid"]}
{"id": "C35", "title": "Nesting of inline markup is bounded and restored", "statement": "Inline markup is expanded to at most five levels; deeper markup is left as text; and processing one element never changes the depth allowed to the next one.", "quantifier": "every text", "why_tests_cant": "Unbounded recursion over arbitrary texts.", "anchors": ["src/parser.rs:ParserState::span", "src/parser.rs:max_span_depth"]}
{"id": "C36", "title": "Inline markup produces the right element", "statement": "For each of the ten inline markers m and every plain text t (no spaces at its ends, no full stop after `*`), parse(m + t + m) is the paragraph containing the corresponding element with text t; in a document of paragraphs, headings and quotations every marked part becomes its element and the rest of the text is unchanged.", "quantifier": "all markers, every plain text", "why_tests_cant": "Universal over texts.", "anchors": ["src/parser.rs:ParserState::span", "src/parser.rs:span_re", "src/parser.rs:ParserState::retrieve_tags"]}
{"id": "C37", "title": "Footnote references and definitions point at each other", "statement": "In a document with a reference `[n]` and a definition `fnn.`, the link of the reference targets the id of the definition, whatever the order of the two.", "quantifier": "every footnote number and surrounding text, both orders", "why_tests_cant": "Universal over numbers and texts.", "anchors": ["src/parser.rs:ParserState::footnote_ref", "src/block.rs:Block::new"]}
{"id": "C38", "title": "Note references and definitions point at each other", "statement": "In a document with a definition `note#label.` and references `[#label]`, the content of the note appears in the note list and every reference links to its id.", "quantifier": "every label and order of definition and references", "why_tests_cant": "Universal over labels and orders.", "anchors": ["src/parser.rs:ParserState::note_ref", "src/parser.rs:ParserState::parse_note_defs", "src/parser.rs:ParserState::place_note_lists"]}
{"id": "C39", "title": "Note lists contain only generated back links", "statement": "The back link characters written in a note list never form HTML markup.", "quantifier": "every start character and number of references", "why_tests_cant": "The number of references is unbounded.", "anchors": ["src/parser.rs:make_back_ref_link", "src/htmltools.rs:unescape"]}
{"id": "C40", "title": "List markup yields balanced tags", "statement": "The tags generated for a list are balanced and properly nested.", "quantifier": "every list (any depth sequence, any kinds)", "why_tests_cant": "Lists are unbounded in length and depth.", "anchors": ["src/parser.rs:ParserState::textile_lists"]}
{"id": "C41", "title": "Ordered list numbering", "statement": "A list starting with `#n` has start=n, and a following list starting with `#_` continues with the number after the last shown item.", "quantifier": "every start number and list length", "why_tests_cant": "Unbounded lengths and numbers.", "anchors": ["src/parser.rs:ParserState::textile_lists", "src/parser.rs:ol_starts"]}
{"id": "C42", "title": "Splitting loses nothing", "statement": "Splitting a text by a delimiter pattern yields pieces which, put back together with the delimiters, give the text; the captured delimiters appear between the pieces.", "quantifier": "every pattern and text", "why_tests_cant": "Universal over patterns and texts; the iterator has a hidden state machine.", "anchors": ["src/regextra.rs:split_with_capture", "src/regextra.rs:ReSplitWithCapture"]}
{"id": "C43", "title": "Typographic replacement never touches tags", "statement": "Glyph replacement leaves every HTML tag of its input unchanged and in place.", "quantifier": "every text", "why_tests_cant": "Universal over texts.", "anchors": ["src/parser.rs:ParserState::glyphs"]}
{"id": "C44", "title": "Relative URLs keep their path", "statement": "A relative URL (one the URL library can resolve against a base) is written with its path exactly as given; only its query or fragment is normalised. A URL that cannot be resolved is written percent-encoded (letters, digits and `%` only, standing for the same characters), or, if that cannot be resolved either, as nothing.", "quantifier": "every URL text and URL parser behaviour", "why_tests_cant": "Universal over URLs.", "anchors": ["src/urlutils.rs:UrlBits", "src/urlutils.rs:UrlBits::to_string"]}
{"id": "C45", "title": "Line break insertion", "statement": "In list items and table cells a break tag is inserted before a newline exactly when the newline is not followed by white space or `|` and not preceded by a closing item tag or a break tag; nothing else changes.", "quantifier": "every content", "why_tests_cant": "Universal over contents, including non-ASCII text where byte offsets matter.", "anchors": ["src/parser.rs:ParserState::do_tag_br", "src/parser.rs:insert_brs"]}
{"id": "C46", "title": "Setters are independent", "statement": "Each setter changes only its own aspect: setters for different options commute, and the last call of a setter wins; options that were not set have their documented defaults.", "quantifier": "every configuration and sequence of setters", "why_tests_cant": "Unbounded sequences of setter calls.", "anchors": ["src/parser.rs:Textile"]}
{"id": "C47", "title": "set_raw_blocks changes the treatment of raw blocks", "statement": "Enabling raw blocks leaves paragraph blocks wrapped in an unknown tag unparsed; disabling it does not.", "quantifier": "every text", "why_tests_cant": "Universal over texts: whether an option has any effect at all is a statement about all texts.", "anchors": ["src/parser.rs:Textile::set_raw_blocks", "src/parser.rs:raw_block_enabled"]}
{"id": "C48", "title": "URL bracket counters", "statement": "The counters used for trailing brackets of URLs behave like a partial map from the four bracket characters to numbers: reading returns the last value written, other counters are unaffected, decrementing stops at zero.", "quantifier": "every sequence of operations", "why_tests_cant": "Unbounded sequences of operations.", "anchors": ["src/charcounter.rs:CharCounter"]}
{"id": "C49", "title": "Brackets and trailing punctuation of link URLs", "statement": "The characters split off the end of a link URL and the URL itself together make up the matched text, except for unmatched closing square brackets; the URL does not end with one of `!?:;.,`.", "quantifier": "every URL text", "why_tests_cant": "Universal over URLs.", "anchors": ["src/parser.rs:ParserState::replace_links"]}
{"id": "C50", "title": "Code blocks in restricted mode show what was typed", "statement": "With set_restricted(true), the text displayed for parse(\"bc. \" + t) is t.", "quantifier": "every content", "why_tests_cant": "Universal over contents; involves two escaping passes.", "anchors": ["src/parser.rs:Textile::parse", "src/block.rs:Block::new", "src/htmltools.rs:encode_html"]}
{"id": "C51", "title": "Documents are rendered block by block", "statement": "For every document made of any number of paragraphs, headings and quotations with ordinary text (several lines each), and code blocks, preformatted blocks, notextile blocks and comments with arbitrary text, separated by empty lines, parse(text) is the concatenation of the elements of the blocks in order, with comments removed and arbitrary text displayed as typed (escaped once more in restricted mode).", "quantifier": "every such document, every configuration with block tags on and without sanitizer", "why_tests_cant": "Unbounded number of blocks and arbitrary contents; blocks must not influence each other.", "anchors": ["src/parser.rs:Textile::parse", "src/parser.rs:ParserState::block", "src/block.rs:Block::new", "src/parser.rs:ParserState::graf", "src/parser.rs:ParserState::shelve", "src/parser.rs:ParserState::retrieve"]}
{"id": "C52", "title": "Inline notextile is verbatim", "statement": "For every t on one line without `==`, parse(\"==\" + t + \"==\") is t in a paragraph, unchanged (escaped once in restricted mode).", "quantifier": "every text, every non-lite configuration with block tags on and without sanitizer", "why_tests_cant": "Arbitrary content must pass every later stage unchanged.", "anchors": ["src/parser.rs:ParserState::no_textile", "src/parser.rs:ParserState::shelve", "src/parser.rs:ParserState::retrieve"]}
{"id": "C53", "title": "Links", "statement": "A link `\"text\":url` becomes one `a` element with the text in it, whose href is the address that the URL parser makes of url (a relative address stays as it is), escaped as an attribute value, with rel exactly if set_rel was called; the text around it is not changed, and punctuation after the address is not part of it.", "quantifier": "every document with links among other inline elements, every URL parser behaviour", "why_tests_cant": "Universal over texts, addresses, numbers and positions of links; the link passes several stages as a placeholder.", "anchors": ["src/parser.rs:ParserState::mark_start_of_links", "src/parser.rs:ParserState::replace_links", "src/parser.rs:ParserState::retrieve_urls", "src/parser.rs:Textile::set_rel"]}
{"id": "C54", "title": "Block attributes", "statement": "The attributes of a block — alignment, paddings, and in any order a group of classes and an identifier, a group of style declarations and a language — become exactly the class, id, lang and style attributes they stand for, in this order, the style being the declarations followed by the paddings and the alignment; in restricted mode classes, identifier and declarations are dropped and the rest is kept.", "quantifier": "every well formed list of attributes, every order of groups, both modes", "why_tests_cant": "Universal over names, declarations, numbers of paddings and orders of groups.", "anchors": ["src/block.rs:BlockAttributes::parse", "src/block.rs:BlockHtmlAttributes::to_string"]}
{"id": "C55", "title": "Blocks with attributes in documents", "statement": "In every document of any number of paragraphs, headings, quotations, code, preformatted and verbatim blocks with attributes, mixed with lists and with inline markup and links in the texts, each block is rendered as its element with exactly the attributes written down, in order; the language of a code block becomes the class of the code element; the texts of code, preformatted and verbatim blocks are displayed as typed (escaped once more in restricted mode, which also drops classes, identifiers and declarations).", "quantifier": "every such document, every configuration with block tags on and without sanitizer", "why_tests_cant": "Unbounded number of blocks and arbitrary contents; blocks must not influence each other.", "anchors": ["src/parser.rs:Textile::parse", "src/parser.rs:ParserState::block", "src/block.rs:Block::new", "src/block.rs:BlockAttributes::parse", "src/parser.rs:ParserState::graf"]}
{"id": "C56", "title": "Footnotes in documents", "statement": "In every document of paragraphs, headings and paragraphs with attributes, all with any number of references to footnotes, and of footnotes with or without a link back, mixed with the blocks of C55, each reference is rendered as a link in a sup element (with an identifier of its own if it is the first to its footnote), each footnote as a paragraph with class footnote and an identifier, and the numbers in the identifiers are given in the order of the first mention.", "quantifier": "every such document, every configuration with block tags on and without sanitizer", "why_tests_cant": "Unbounded number of blocks and references; the numbers depend on everything before.", "anchors": ["src/parser.rs:ParserState::footnote_ref", "src/parser.rs:ParserState::block", "src/block.rs:Block::new", "src/parser.rs:Textile::parse"]}
{"id": "C57", "title": "Tables in documents", "statement": "In every document of tables and of the blocks of C56, in any order, each table is rendered as a table element with its sections and rows, each row as a tr element with one td or th element per cell, each cell with its text; sections come first, then the rows that belong to none.", "quantifier": "every such document, every configuration with block tags on, not lite, and without sanitizer", "why_tests_cant": "Unbounded number of tables, sections, rows and cells, with arbitrary texts.", "anchors": ["src/table.rs:process_table", "src/parser.rs:ParserState::graf", "src/parser.rs:Textile::parse"]}
{"id": "C58", "title": "Rows keep their order", "statement": "The rows of a table appear in the output in the order in which they are written.", "quantifier": "every document with tables", "why_tests_cant": "Depends on the interplay of all rows and sections of a table of any size.", "anchors": ["src/table.rs:process_table"]}
{"id": "C59", "title": "Tables lose no text", "statement": "The words in a block with a table in it, inside or outside of the cells, appear in the output.", "quantifier": "every document with tables, every cell", "why_tests_cant": "Universal over tables of any size and over texts around them.", "anchors": ["src/table.rs:process_table", "src/parser.rs:ParserState::table"]}
{"id": "C60", "title": "Typographic signs in documents", "statement": "In every document of paragraphs and headings with quotation marks, apostrophes, decades like '80, dots, dashes, ampersands, character references and marks in brackets like (c) and [1/2], mixed with the blocks of C57, each sign is rendered as the character reference it stands for and everything else is unchanged; existing character references stay as they are, and a bare ampersand becomes `&amp;` exactly once, also in restricted mode.", "quantifier": "every such document, every configuration with block tags on and without sanitizer", "why_tests_cant": "Twenty-two patterns are applied one after the other to the whole text, and each could hit the output of an earlier one or the text between.", "anchors": ["src/parser.rs:ParserState::glyphs", "src/parser.rs:ParserState::graf", "src/parser.rs:Textile::parse"]}
{"id": "C61", "title": "Apostrophes", "statement": "An apostrophe between two letters or digits is rendered as the apostrophe `&#8217;`.", "quantifier": "every text with an apostrophe between letters or digits", "why_tests_cant": "Universal over texts.", "anchors": ["src/parser.rs:ParserState::glyphs"]}
{"id": "C62", "title": "Words next to marks are kept", "statement": "The words before and after typographic signs appear in the output, in order.", "quantifier": "every document with signs", "why_tests_cant": "Universal over texts and signs; other patterns can take a sign and the word after it for something else.", "anchors": ["src/parser.rs:ParserState::glyphs", "src/parser.rs:ParserState::get_refs"]}
{"id": "C63", "title": "Images are rendered with their attributes", "statement": "Every image in a paragraph, heading or quotation becomes an img element with its address, alternative text, title, classes, style, language and alignment, inside a link if one is given; alignment is a class or the attribute align as configured; the text around it is unchanged.", "quantifier": "every document of blocks with images, in any order and number, with any mix of alignment, attributes, title and link", "why_tests_cant": "Universal over documents, images and settings; the address goes through two tables of placeholders.", "anchors": ["src/parser.rs:ParserState::image", "src/parser.rs:ParserState::f_image", "src/parser.rs:ParserState::shelve_url", "src/parser.rs:ParserState::retrieve"]}
{"id": "C64", "title": "The alternative text of an image is its title", "statement": "The value of alt, decoded by the rules of HTML, is the title written in the source, and that of src is the address.", "quantifier": "every document with images with titles, in every mode", "why_tests_cant": "Universal over titles and modes; the title passes several escapings.", "anchors": ["src/parser.rs:ParserState::f_image", "src/htmltools.rs:generate_tag", "src/htmltools.rs:encode_html"]}
{"id": "C65", "title": "Endnotes are rendered as references and a list", "statement": "Every reference becomes a link with the number of its note and an identifier of its own; definitions leave nothing in their place; the list has one item for every note referred to, with its attributes, the links back to its references as the definition asks, and its text, or a remark that it is undefined, wherever in the document references and definitions are.", "quantifier": "every document of blocks with references to notes, definitions and a list of notes, in any order and number", "why_tests_cant": "Universal over documents; the state of the notes goes through all blocks.", "anchors": ["src/parser.rs:ParserState::note_ref", "src/parser.rs:ParserState::parse_note_defs", "src/parser.rs:ParserState::place_note_lists", "src/parser.rs:make_back_ref_link"]}
{"id": "C66", "title": "The list of notes is in the order of the notes", "statement": "The n-th item of the list of notes is the note that the text shows as number n, and the notes are numbered in the order of their first references.", "quantifier": "every document with references to notes and a list", "why_tests_cant": "Universal over the number of notes; the tests have few notes.", "anchors": ["src/parser.rs:ParserState::place_note_lists"]}
{"id": "C67", "title": "Extended blocks extend to the next block with a tag", "statement": "An extended block (a tag with two full stops) takes all following texts up to the next block with a tag or the end of the document: code, preformatted and verbatim blocks become one element with all of them, paragraphs and headings one element each with the same attributes, quotations one blockquote with a paragraph each. What comes after is not affected.", "quantifier": "every document of extended and other blocks, in any order and number, with any number of texts in each", "why_tests_cant": "Universal over documents; the state of the extended block goes through all blocks.", "anchors": ["src/parser.rs:ParserState::block", "src/block.rs:Block::new"]}
{"id": "C68", "title": "Extended code blocks keep their text", "statement": "The text of the code element of an extended code block, decoded, is exactly the text of the source from the tag to the next block with a tag, with all its blank lines.", "quantifier": "every document with extended code blocks, every text in them", "why_tests_cant": "Universal over texts and their number.", "anchors": ["src/parser.rs:ParserState::block", "src/block.rs:Block::new", "src/htmltools.rs:encode_html"]}
{"id": "C69", "title": "Tables are rendered with all attributes", "statement": "The attributes of a table, of its caption, sections, rows and cells become HTML attributes of their elements: classes, identifiers, languages, horizontal and vertical alignment, numbers of columns and rows, the summary of the table.", "quantifier": "every document of tables with attributes and other blocks, in any order and number, in every mode", "why_tests_cant": "Universal over tables, attributes and documents.", "anchors": ["src/table.rs:process_table", "src/table.rs:process_caption", "src/block.rs:BlockAttributes::parse"]}
{"id": "C70", "title": "The attributes of a table cell are kept", "statement": "A cell becomes an element with its text and an HTML attribute for every attribute that is written: colspan, rowspan, class, id, lang, horizontal and vertical alignment.", "quantifier": "every table, every cell, every combination of attributes", "why_tests_cant": "Universal over combinations; most tests have one attribute.", "anchors": ["src/table.rs:process_table", "src/block.rs:BlockAttributes::parse"]}
{"id": "C71", "title": "Every cell of a table becomes a cell element", "statement": "The cells of every row come out as cell elements with their texts, in order, whatever their attributes.", "quantifier": "every table, every row", "why_tests_cant": "Universal over tables and attributes.", "anchors": ["src/table.rs:process_table", "src/table.rs:process_caption"]}
{"id": "C72", "title": "Definition lists are rendered as lists of terms with definitions", "statement": "Every item `- term := definition` becomes a `<dt>` with the term and a `<dd>` with the definition, an item `- term` a `<dt>` alone, in a `<dl>` element; attributes after the dash go to the `<dt>`.", "quantifier": "every document of definition lists with any number of items and attributes and other blocks, in any order and number, in every mode but lite", "why_tests_cant": "Universal over lists, attributes and documents.", "anchors": ["src/parser.rs:ParserState::redcloth_list", "src/block.rs:BlockAttributes::parse"]}
{"id": "C73", "title": "No term or definition of a definition list is lost", "statement": "The terms come out as `<dt>` elements in their order, each followed by the `<dd>` of its definition if it has one.", "quantifier": "every definition list, every item", "why_tests_cant": "Universal over lists and texts of items.", "anchors": ["src/parser.rs:ParserState::redcloth_list"]}
{"id": "C74", "title": "The attributes of a term belong to its element alone", "statement": "The `<dt>` of a term has the class, identifier and language written for it, and the `<dl>` of the list does not have them.", "quantifier": "every definition list, every item, every combination of attributes", "why_tests_cant": "Universal over combinations of attributes and positions in the list.", "anchors": ["src/parser.rs:ParserState::redcloth_list", "src/block.rs:BlockAttributes::parse"]}
{"id": "C75", "title": "Words in capitals get an element of their own", "statement": "A word of three or more capitals becomes a span of class caps, and one with an explanation in brackets an abbr element (acronym in XHTML) with the explanation as its title; the text around them is unchanged.", "quantifier": "every document of paragraphs and headings with words in capitals and acronyms and other blocks, in any order and number, in every mode", "why_tests_cant": "Universal over texts and documents.", "anchors": ["src/parser.rs:make_glyph_replacers", "src/parser.rs:ParserState::glyphs"]}
{"id": "C76", "title": "Every word in capitals is marked", "statement": "The words of three or more capitals of a text come out in order, each in a span element of class caps.", "quantifier": "every text, every word of three or more capitals in it", "why_tests_cant": "Universal over texts and positions of the words.", "anchors": ["src/parser.rs:make_glyph_replacers", "src/parser.rs:ParserState::glyphs"]}
{"id": "C77", "title": "The explanation of an acronym is its title", "statement": "For an acronym with an explanation in brackets, the value of the title attribute is the explanation.", "quantifier": "every acronym, every explanation, in every mode", "why_tests_cant": "Universal over explanations; markup in them goes through other stages first.", "anchors": ["src/parser.rs:make_glyph_replacers", "src/parser.rs:ParserState::span"]}
{"id": "C78", "title": "Marked parts can have classes and identifiers", "statement": "A marked part with a group `(classes#identifier)` behind its marker becomes an element with these as its class and id attributes; the text around it is unchanged, and in restricted mode the attributes are left out.", "quantifier": "every document of paragraphs and headings with any number of such parts and other blocks, in any order and number, in every mode", "why_tests_cant": "Universal over texts, names and documents.", "anchors": ["src/parser.rs:ParserState::span", "src/block.rs:BlockAttributes::parse"]}
{"id": "C79", "title": "The classes of a marked part are kept", "statement": "The marked parts of a text come out in order, each in an element with the classes and the identifier written in the group.", "quantifier": "every text with marked parts, every group in brackets", "why_tests_cant": "Universal over texts and groups.", "anchors": ["src/parser.rs:ParserState::span", "src/block.rs:BlockAttributes::parse"]}
{"id": "C80", "title": "In restricted mode, authors cannot give classes to parts of a text", "statement": "In restricted mode, the elements of marked parts have no class and no id attribute, whatever groups are written for them, and their texts are kept.", "quantifier": "every text with marked parts, every group in brackets, in restricted mode", "why_tests_cant": "Universal over texts and groups.", "anchors": ["src/parser.rs:ParserState::span", "src/block.rs:BlockAttributes::parse"]}
{"id": "C81", "title": "Quotations can name the address of their source", "statement": "A quotation `bq.:address text` becomes a blockquote element whose cite attribute is the address as resolved by the URL library, with the text and its attributes as in a quotation without address.", "quantifier": "every document of such quotations, with attributes and marked parts, and other blocks, in any order and number, in every mode", "why_tests_cant": "Universal over texts, addresses and documents.", "anchors": ["src/block.rs:Block::new", "src/parser.rs:ParserState::unrestrict_url", "src/parser.rs:ParserState::parse_blocks"]}
{"id": "C82", "title": "The address of the source is kept", "statement": "The address written behind the tag of a block is in the output as the value of a cite attribute: the value ends at the quotation mark written to end it, and a reader of the HTML gets the resolved address from it.", "quantifier": "every text with such blocks, every address", "why_tests_cant": "Universal over texts and addresses.", "anchors": ["src/block.rs:Block::new", "src/parser.rs:ParserState::unrestrict_url", "src/htmltools.rs:encode_html"]}
{"id": "C83", "title": "Links with attributes and titles", "statement": "A link `\"(class#id){style}[lang]text(title)\":address` becomes one `a` element around its text whose attributes, sorted by name, are the class, address, identifier, language, relation, style and title; in restricted mode class, identifier and style are dropped.", "quantifier": "every document with such links, groups in any order, in paragraphs, headings and quotations, and other blocks, in any order and number, in every mode", "why_tests_cant": "Universal over texts, attributes, titles and documents; link and title pass several stages as placeholders, one within the other.", "anchors": ["src/parser.rs:ParserState::replace_links", "src/parser.rs:ParserState::mark_start_of_links", "src/block.rs:BlockAttributes::parse", "src/parser.rs:ParserState::shelve"]}
{"id": "C84", "title": "The title of a link is kept", "statement": "The title in brackets at the end of the text of a link is the value of the title attribute of its element: the value ends at the quotation mark written to end it, and a reader of the HTML gets the title from it.", "quantifier": "every text with such links, every title", "why_tests_cant": "Universal over texts and titles.", "anchors": ["src/parser.rs:ParserState::replace_links", "src/htmltools.rs:encode_html"]}
{"id": "C85", "title": "The class and identifier of a link are kept", "statement": "In unrestricted mode, the class and identifier before the text of a link are those of its element.", "quantifier": "every text with such links, every class and identifier", "why_tests_cant": "Universal over texts and names.", "anchors": ["src/parser.rs:ParserState::replace_links", "src/block.rs:BlockAttributes::parse"]}
{"id": "C86", "title": "Links in restricted mode have no class, identifier or style", "statement": "In restricted mode the element of a link has its address, and apart from it at most a language, a relation and a title, whose values end at the quotation marks written to end them.", "quantifier": "every text with links, whatever is written before their text, in restricted mode", "why_tests_cant": "Universal over texts and attributes.", "anchors": ["src/parser.rs:ParserState::replace_links", "src/block.rs:BlockAttributes::parse", "src/htmltools.rs:quoteattr"]}
{"id": "C87", "title": "HTML rules and images, and indented texts", "statement": "A block of HTML tags of rules and images is in the output as it was written; a block of text that starts with a space is in the output with its links replaced by `a` elements, without a paragraph around it and without break tags at its newlines; blocks before and after are not affected.", "quantifier": "every document with such blocks, texts with links, and other blocks, in any order and number, in every mode", "why_tests_cant": "Universal over tags, texts and documents; the tags pass all later stages as placeholders.", "anchors": ["src/parser.rs:ParserState::parse_blocks", "src/parser.rs:ParserState::shelve", "src/parser.rs:ParserState::graf", "src/htmltools.rs:has_raw_text"]}
{"id": "C88", "title": "HTML rules, images and line breaks on a line of their own are kept", "statement": "In unrestricted mode, HTML tags of rules, images and line breaks on a line of their own are in the output as they were written, with an empty line or nothing before and after them, so that they are not in a paragraph.", "quantifier": "every document with such lines, whatever attributes the tags have", "why_tests_cant": "Universal over tags and documents.", "anchors": ["src/parser.rs:ParserState::parse_blocks", "src/parser.rs:ParserState::shelve"]}
{"id": "C89", "title": "Indented texts are kept", "statement": "A block of words that starts with a space is in the output as it was written, with an empty line or nothing before and after it: it is not in a paragraph and has no break tags.", "quantifier": "every document with such blocks, any number of spaces, words and lines", "why_tests_cant": "Universal over texts and documents.", "anchors": ["src/parser.rs:ParserState::parse_blocks", "src/parser.rs:ParserState::graf"]}
{"id": "C90", "title": "Marked parts without blocks", "statement": "With `set_block_tags(false)`, marked parts of a text become elements with their classes and identifiers (without them in restricted mode); everything else, newlines and signs of blocks included, is in the output as it was written, without paragraphs and break tags.", "quantifier": "every text with any number of marked parts, in every mode", "why_tests_cant": "Universal over texts, markers, classes and options.", "anchors": ["src/parser.rs:Textile::parse", "src/parser.rs:ParserState::span"]}
{"id": "C91", "title": "With and without block tags", "statement": "What `parse` returns for a text that does not start like another block is a paragraph of what it returns for the text with `set_block_tags(false)`, with a break tag before each newline.", "quantifier": "every such text, in every mode", "why_tests_cant": "Relates two runs of the parser with different options on all texts.", "anchors": ["src/parser.rs:Textile::parse", "src/parser.rs:ParserState::graf", "src/parser.rs:ParserState::span"]}
{"id": "C92", "title": "A link with `$` as its text shows its address without the scheme", "statement": "A link with `$` as its text becomes an `a` element with its address whose content is the address as written, without the scheme, its colon and the two slashes after it.", "quantifier": "every text with such links, with any attributes and titles, in every mode", "why_tests_cant": "Universal over texts and addresses.", "anchors": ["src/parser.rs:make_url_readable", "src/parser.rs:ParserState::replace_links"]}
{"id": "C93", "title": "Restricted mode gives only Textile's own elements and attributes", "statement": "With set_restricted(true), what `parse` returns consists of elements with names that Textile uses, properly nested, break tags, images and text without `<`; all attributes have names that Textile uses (none is for event handlers), and their values contain neither the quote that closes them nor `<`.", "quantifier": "every text, in particular with any text in code, verbatim blocks and titles", "why_tests_cant": "A security property over all texts; tests cover a few attack strings.", "anchors": ["src/parser.rs:Textile::set_restricted", "src/parser.rs:Textile::parse", "src/htmltools.rs:encode_html", "src/htmltools.rs:generate_tag"]}
{"id": "C94", "title": "Without tags in the text there are only Textile's own elements", "statement": "If there is no `<` in a text, what `parse` returns for it consists of Textile's own elements, properly nested and with Textile's own attributes, as in C93, in every mode.", "quantifier": "every text without `<`, in every mode", "why_tests_cant": "Universal over texts and options.", "anchors": ["src/parser.rs:Textile::parse", "src/parser.rs:ParserState::graf"]}
{"id": "C95", "title": "Documents are converted piece by piece", "statement": "If a text is followed by another one after at least one empty line, what `parse` returns is what it returns for the first, the same newlines, and what it returns for the second.", "quantifier": "every two texts, and every number of empty lines between them", "why_tests_cant": "Universal over pairs of texts; relates three calls of `parse`.", "anchors": ["src/parser.rs:Textile::parse", "src/parser.rs:ParserState::parse_blocks"]}
{"id": "C96", "title": "The kind of HTML changes only line breaks, acronyms and the alignment of images", "statement": "What `parse` returns with `set_html_kind(HtmlKind::XHTML)` is what it returns with `set_html_kind(HtmlKind::HTML5)`, except that line breaks are `<br />` instead of `<br>`, the element of acronyms is `acronym` instead of `abbr`, and images are aligned by the attribute `align` instead of a class `align-...`.", "quantifier": "every text and all other options", "why_tests_cant": "Universal over texts; relates two calls of `parse` with different options.", "anchors": ["src/parser.rs:Textile::set_html_kind", "src/parser.rs:ParserState::glyphs", "src/parser.rs:ParserState::f_image"]}
{"id": "C97", "title": "The random identifier of a parser does not change the rest of the output", "statement": "Two parsers with the same options but different identifiers, which are random unless given, return the same text from `parse`, except that the identifier of the one is where that of the other is.", "quantifier": "every text and any two identifiers", "why_tests_cant": "Universal over texts and identifiers; tests fix the identifier.", "anchors": ["src/parser.rs:Textile::default", "src/parser.rs:Textile::set_uid", "src/parser.rs:ParserState::new"]}
{"id": "C98", "title": "Lite mode does not change documents without what it leaves out", "statement": "A text that uses nothing that lite mode leaves out, that is only paragraphs, quotations and code blocks, without lists, tables, and code or verbatim text in paragraphs, is converted to the same HTML with `set_lite(true)` and with `set_lite(false)`.", "quantifier": "every text of this kind and all other options", "why_tests_cant": "Universal over texts; relates two calls of `parse` with different options.", "anchors": ["src/parser.rs:Textile::set_lite", "src/parser.rs:ParserState::graf", "src/parser.rs:BLOCK_TAGS_LITE_RE_S"]}
{"id": "C99", "title": "Without images, asking for their sizes makes no difference", "statement": "After `set_images(false)`, `set_getting_image_size` has no influence on what `parse` returns.", "quantifier": "every text, all other options, and whatever the sizes of images are", "why_tests_cant": "Universal over texts; relates calls of `parse` with different options.", "anchors": ["src/parser.rs:Textile::set_images", "src/parser.rs:Textile::set_getting_image_size", "src/parser.rs:ParserState::f_image"]}
{"id": "C100", "title": "Inline mode ignores the options for blocks, links and images", "statement": "After `set_block_tags(false)`, none of `set_lite`, `set_images`, `set_getting_image_size`, `set_rel` and `set_raw_blocks` has any influence on what `parse` returns.", "quantifier": "every text, all other options, and every sequence of such calls", "why_tests_cant": "Universal over texts and sequences of calls; relates calls of `parse` with different options.", "anchors": ["src/parser.rs:Textile::set_block_tags", "src/parser.rs:Textile::parse"]}
{"id": "C101", "title": "Inline mode makes no links, images or notes", "statement": "After `set_block_tags(false)`, the only elements that `parse` makes and stores are those of inline markup (`strong`, `b`, `cite`, `em`, `i`, `del`, `span`, `ins`, `sub`, `sup`): no links, images, notes or footnotes, and no size of an image is asked for.", "quantifier": "every text and all other options", "why_tests_cant": "Universal over texts and options.", "anchors": ["src/parser.rs:Textile::set_block_tags", "src/parser.rs:Textile::parse", "src/parser.rs:ParserState::span"]}
{"id": "C102", "title": "Restricted mode: the tags of inline markup have only harmless attributes", "statement": "After `set_restricted(true)`, every tag of inline markup that `parse` makes has no `class` and no `id`, a `style` only of the padding and alignment declarations of the parser itself, and attribute values that are delimited by quotation marks not occurring in them and contain no `<` or `>`.", "quantifier": "every text and all other options", "why_tests_cant": "Universal over texts and options.", "anchors": ["src/parser.rs:Textile::set_restricted", "src/parser.rs:Textile::parse", "src/parser.rs:ParserState::span"]}
{"id": "C103", "title": "Restricted mode: the tags of links have only harmless attributes", "statement": "After `set_restricted(true)`, every link that `parse` makes of link markup has, besides its address, title and `rel`, no `class` and no `id`, a `style` only of the padding and alignment declarations of the parser itself, and attribute values that are delimited by quotation marks not occurring in them and contain no `<` or `>`. The address and the title are meant as the placeholders that stand for them when the link is made.", "quantifier": "every text and all other options", "why_tests_cant": "Universal over texts and options.", "anchors": ["src/parser.rs:Textile::set_restricted", "src/parser.rs:Textile::parse", "src/parser.rs:ParserState::links"]}
