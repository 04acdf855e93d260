{
 "claims": [
  {
   "property": "C01",
   "status": "proved",
   "theorems": [
    "Rustextile.C01_blank"
   ],
   "note": ""
  },
  {
   "property": "C02",
   "status": "proved",
   "theorems": [
    "Rustextile.C02_no_final_newline"
   ],
   "note": ""
  },
  {
   "property": "C03",
   "status": "proved",
   "theorems": [
    "Rustextile.C03_breaks"
   ],
   "note": ""
  },
  {
   "property": "C04",
   "status": "proved",
   "theorems": [
    "Rustextile.C04_sanitizer"
   ],
   "note": ""
  },
  {
   "property": "C05",
   "status": "partial",
   "theorems": [
    "Rustextile.C05_history_partial",
    "Rustextile.C05_negation"
   ],
   "note": "Holds for every history in which set_uid does not follow a parse call; C05_negation shows that it fails otherwise (stale patterns in the regex cache)."
  },
  {
   "property": "C06",
   "status": "proved",
   "theorems": [
    "Rustextile.C06_line_endings"
   ],
   "note": ""
  },
  {
   "property": "C07",
   "status": "partial",
   "theorems": [
    "Rustextile.C07_leading",
    "Rustextile.C07_outer_newlines_partial",
    "Rustextile.C07_negation"
   ],
   "note": "Newlines before the text never matter. Newlines after the text do not matter unless the last line is made of blanks only (C07_negation)."
  },
  {
   "property": "C08",
   "status": "partial",
   "theorems": [
    "Rustextile.C08_blank_lines_partial",
    "Rustextile.C07_negation"
   ],
   "note": "Proved for every line terminated by a newline; an unterminated last line of blanks is not normalised (C07_negation)."
  },
  {
   "property": "C09",
   "status": "proved",
   "theorems": [
    "Rustextile.C09_plain_words",
    "Rustextile.C09_paragraph"
   ],
   "note": "Proved for a larger class than stated: letters, digits, commas, full stops and several lines (C09_paragraph). Assumes that the token base is plain letters and digits (as the default one is) and no sanitizer."
  },
  {
   "property": "C10",
   "status": "proved",
   "theorems": [
    "Rustextile.C10_inline_mode"
   ],
   "note": "Same assumptions as C09."
  },
  {
   "property": "C100",
   "status": "proved",
   "theorems": [
    "Rustextile.C100_inline_ignores",
    "Rustextile.C100_options_matter"
   ],
   "note": "For every text and any calls of these setters. C100_options_matter is an example outside inline mode, where they make a difference."
  },
  {
   "property": "C101",
   "status": "proved",
   "theorems": [
    "Rustextile.C101_inline_only"
   ],
   "note": "For every text: everything put on the shelf or into the cache of tags during parse is a quoted quotation mark or a tag of inline markup. The elements for words in capitals and acronyms are not stored but written directly."
  },
  {
   "property": "C102",
   "status": "proved",
   "theorems": [
    "Rustextile.C102_restricted_inline",
    "Rustextile.C102_unrestricted"
   ],
   "note": "For every text and every mode: the tags of inline markup as they are put into the cache of tags during parse. C102_unrestricted shows that this needs restricted mode. The elements for words in capitals and acronyms are not stored but written directly, and are not covered."
  },
  {
   "property": "C103",
   "status": "proved",
   "theorems": [
    "Rustextile.C103_restricted_links",
    "Rustextile.C103_unrestricted"
   ],
   "note": "For every text and every mode: the links as they are set aside during parse, with placeholders for the address and the title. What is later put in place of these is not covered (see C26, C27). C103_unrestricted shows that this needs restricted mode. The links that images, footnotes and notes contain are not covered."
  },
  {
   "property": "C11",
   "status": "proved",
   "theorems": [
    "Rustextile.C11_headings"
   ],
   "note": "Same assumptions as C09."
  },
  {
   "property": "C12",
   "status": "partial",
   "theorems": [
    "Rustextile.C12_lite_partial",
    "Rustextile.C12_negation"
   ],
   "note": "Proved for h1-h6, pre, notextile and fnN before ordinary text. False for bc. blocks."
  },
  {
   "property": "C13",
   "status": "proved",
   "theorems": [
    "Rustextile.C13_code_block"
   ],
   "note": "Same assumptions as C09; holds in lite mode too."
  },
  {
   "property": "C14",
   "status": "proved",
   "theorems": [
    "Rustextile.C14_notextile_block"
   ],
   "note": "Same assumptions as C09."
  },
  {
   "property": "C15",
   "status": "proved",
   "theorems": [
    "Rustextile.C15_comment"
   ],
   "note": "Same assumptions as C09."
  },
  {
   "property": "C16",
   "status": "partial",
   "theorems": [
    "Rustextile.C16_documents_partial",
    "Rustextile.C16_code_partial",
    "Rustextile.C16_negation",
    "Rustextile.C16_negation_restricted"
   ],
   "note": "False in general: == and <code> are processed inside @...@, and restricted mode escapes twice. Proved for all other texts (also without <notextile>): the exact HTML of code alone, and of code anywhere in documents with inline markup (C16_documents_partial)."
  },
  {
   "property": "C17",
   "status": "partial",
   "theorems": [
    "Rustextile.C17_escape_partial",
    "Rustextile.C17_injective",
    "Rustextile.C17_negation"
   ],
   "note": "Round trip holds up to an exchange of CR and LF when spacers are encoded; C17_negation: encode_html swaps their references."
  },
  {
   "property": "C18",
   "status": "partial",
   "theorems": [
    "Rustextile.C18_attribute_value_partial",
    "Rustextile.C18_negation",
    "Rustextile.quoteattr_shape"
   ],
   "note": "Values containing CR or LF come back with the two exchanged (C18_negation)."
  },
  {
   "property": "C19",
   "status": "proved",
   "theorems": [
    "Rustextile.C19_tag",
    "Rustextile.C19_valid_names"
   ],
   "note": ""
  },
  {
   "property": "C20",
   "status": "proved",
   "theorems": [
    "Rustextile.C20_attributes",
    "Rustextile.C20_order",
    "Rustextile.C20_css_class"
   ],
   "note": ""
  },
  {
   "property": "C21",
   "status": "proved",
   "theorems": [
    "Rustextile.C21_restricted_attributes"
   ],
   "note": ""
  },
  {
   "property": "C22",
   "status": "partial",
   "theorems": [
    "Rustextile.C22_attributes_partial",
    "Rustextile.C22_negation",
    "Rustextile.C22_negation_inline"
   ],
   "note": "Proved for attribute texts in which the opening and the closing parentheses form one run each. False in general: unbalanced parentheses panic."
  },
  {
   "property": "C23",
   "status": "partial",
   "theorems": [
    "Rustextile.C23_C24_documents_partial",
    "Rustextile.C36_documents",
    "Rustextile.C16_documents_partial",
    "Rustextile.C40_documents_partial",
    "Rustextile.C55_documents",
    "Rustextile.C56_footnotes",
    "Rustextile.C57_tables",
    "Rustextile.C60_signs",
    "Rustextile.C63_images",
    "Rustextile.C65_endnotes",
    "Rustextile.C67_extended",
    "Rustextile.C69_table_attributes",
    "Rustextile.C72_definition_lists",
    "Rustextile.C75_capitals",
    "Rustextile.C78_classes",
    "Rustextile.C81_citations",
    "Rustextile.C83_link_attributes",
    "Rustextile.C87_raw_lines",
    "Rustextile.C23_negation"
   ],
   "note": "False: three texts that panic. Proved for documents of simple blocks, with inline markup, code, verbatim text and links, with lists, with block attributes, with footnotes, with tables, with typographic signs, with images, with endnotes, with extended blocks, with table attributes, with definition lists, with words in capitals, with classes of marked parts, with addresses of quotations, with attributes and titles of links, and with HTML rules and indented texts."
  },
  {
   "property": "C24",
   "status": "partial",
   "theorems": [
    "Rustextile.C23_C24_documents_partial",
    "Rustextile.C36_documents",
    "Rustextile.C16_documents_partial",
    "Rustextile.C40_documents_partial",
    "Rustextile.C55_documents",
    "Rustextile.C56_footnotes",
    "Rustextile.C57_tables",
    "Rustextile.C60_signs",
    "Rustextile.C63_images",
    "Rustextile.C65_endnotes",
    "Rustextile.C67_extended",
    "Rustextile.C69_table_attributes",
    "Rustextile.C72_definition_lists",
    "Rustextile.C75_capitals",
    "Rustextile.C78_classes",
    "Rustextile.C81_citations",
    "Rustextile.C83_link_attributes",
    "Rustextile.C87_raw_lines",
    "Rustextile.C24_negation"
   ],
   "note": "False: a text for which parse does not terminate. Proved for documents of simple blocks, with inline markup, code, verbatim text and links, with lists, with block attributes, with footnotes, with tables, with typographic signs, with images, with endnotes, with extended blocks, with table attributes, with definition lists, with words in capitals, with classes of marked parts, with addresses of quotations, with attributes and titles of links, and with HTML rules and indented texts."
  },
  {
   "property": "C25",
   "status": "partial",
   "theorems": [
    "Rustextile.C25_documents_partial",
    "Rustextile.C93_safe_partial",
    "Rustextile.C25_negation"
   ],
   "note": "False: a script element from a URL in restricted mode. Proved for documents of simple blocks with arbitrary text in code, preformatted and verbatim blocks and comments, and for documents as in C87."
  },
  {
   "property": "C26",
   "status": "partial",
   "theorems": [
    "Rustextile.C26_images_partial",
    "Rustextile.C77_explanations_partial",
    "Rustextile.C93_safe_partial",
    "Rustextile.C26_negation",
    "Rustextile.C77_explanations_fails"
   ],
   "note": "False: attribute injection through an acronym. Proved for the addresses of images and of their links, in documents as in C63, and for explanations of acronyms that are ordinary text, in documents as in C75, and for all attributes in documents as in C87."
  },
  {
   "property": "C27",
   "status": "partial",
   "theorems": [
    "Rustextile.C27_schemes_partial",
    "Rustextile.C27_negation_image_link",
    "Rustextile.C27_negation_alias",
    "Rustextile.C27_negation_quotation"
   ],
   "note": "Every link and image element is made with a URL entry that is relative or has an allowed scheme. Not so for the link around an image, for URL aliases and for the address of a quotation (negations). The step from the element to the output is covered for documents as in C40_documents_partial."
  },
  {
   "property": "C28",
   "status": "partial",
   "theorems": [
    "Rustextile.C28_rel_partial",
    "Rustextile.C53_link_partial",
    "Rustextile.C40_documents_partial",
    "Rustextile.C28_negation"
   ],
   "note": "Every element made for a Textile link has rel exactly as set; links around images do not (C28_negation). The step from the element to the output is covered for documents as in C40_documents_partial."
  },
  {
   "property": "C29",
   "status": "proved",
   "theorems": [
    "Rustextile.C29_no_images"
   ],
   "note": ""
  },
  {
   "property": "C30",
   "status": "proved",
   "theorems": [
    "Rustextile.C30_no_network",
    "Rustextile.C30_default"
   ],
   "note": ""
  },
  {
   "property": "C31",
   "status": "proved",
   "theorems": [
    "Rustextile.C31_probe",
    "Rustextile.C31_prefix"
   ],
   "note": ""
  },
  {
   "property": "C32",
   "status": "proved",
   "theorems": [
    "Rustextile.C32_numbers",
    "Rustextile.C32_ids"
   ],
   "note": ""
  },
  {
   "property": "C33",
   "status": "proved",
   "theorems": [
    "Rustextile.C33_placeholders",
    "Rustextile.C33_no_overlap"
   ],
   "note": ""
  },
  {
   "property": "C34",
   "status": "partial",
   "theorems": [
    "Rustextile.C34_removed_partial",
    "Rustextile.C34_negation"
   ],
   "note": "False: the token is removed in a single pass. Proved for texts in which the token is nowhere directly followed by one of its own characters."
  },
  {
   "property": "C35",
   "status": "partial",
   "theorems": [
    "Rustextile.C35_depth_partial",
    "Rustextile.C35_limit",
    "Rustextile.C35_five",
    "Rustextile.C35_negation"
   ],
   "note": "The depth counter is bounded and restored by every step, but the limit of five is not effective for the output: C35_negation exhibits six nested elements."
  },
  {
   "property": "C36",
   "status": "proved",
   "theorems": [
    "Rustextile.C36_documents",
    "Rustextile.C36_markers"
   ],
   "note": "C36_documents covers any number of marked parts in paragraphs, headings and quotations of several lines, in every mode; C36_markers is the single marked part. Plain text has no space at its ends, and does not begin with a full stop after `*` or `**` (that begins a list)."
  },
  {
   "property": "C37",
   "status": "partial",
   "theorems": [
    "Rustextile.C37_reference_first_partial",
    "Rustextile.C37_negation"
   ],
   "note": "False when the definition comes first. Proved for documents as in C56 in which a reference comes first, whatever is between it and the definition."
  },
  {
   "property": "C38",
   "status": "partial",
   "theorems": [
    "Rustextile.C38_defined_later_partial",
    "Rustextile.C38_negation"
   ],
   "note": "False when the definition comes first, and for all references but the first. Proved for the first reference when the definition comes later, in documents as in C65."
  },
  {
   "property": "C39",
   "status": "partial",
   "theorems": [
    "Rustextile.C39_back_links_partial",
    "Rustextile.C39_start_characters",
    "Rustextile.C39_negation",
    "Rustextile.C39_negation_parse"
   ],
   "note": "Proved as long as the characters after the starting one are harmless. False in general: back link characters run into '<'."
  },
  {
   "property": "C40",
   "status": "partial",
   "theorems": [
    "Rustextile.C40_documents_partial",
    "Rustextile.C40_balanced_partial",
    "Rustextile.C40_negation",
    "Rustextile.C40_negation_lower"
   ],
   "note": "False for lists that skip levels or change their kind at some depth (C40_negation); a panic where lower case has another length (C40_negation_lower). Proved for trees of items of any depth and length, in documents together with paragraphs, headings and quotations with inline markup: the exact HTML, and that it is balanced. Items are ordinary text."
  },
  {
   "property": "C41",
   "status": "partial",
   "theorems": [
    "Rustextile.C41_numbers_partial",
    "Rustextile.C41_negation"
   ],
   "note": "Proved for documents as in C40_documents_partial. False for numbers that do not fit into a machine word, which are ignored (C41_negation)."
  },
  {
   "property": "C42",
   "status": "proved",
   "theorems": [
    "Rustextile.C42_split",
    "Rustextile.C42_captured",
    "Rustextile.split_refines"
   ],
   "note": ""
  },
  {
   "property": "C43",
   "status": "proved",
   "theorems": [
    "Rustextile.C43_tags_kept"
   ],
   "note": "Stated of the function that cuts a text at its tags and replaces glyphs in the pieces between them."
  },
  {
   "property": "C44",
   "status": "proved",
   "theorems": [
    "Rustextile.C44_relative_path",
    "Rustextile.C44_encoded"
   ],
   "note": ""
  },
  {
   "property": "C45",
   "status": "partial",
   "theorems": [
    "Rustextile.C45_line_breaks_partial",
    "Rustextile.C45_ascii",
    "Rustextile.C45_negation"
   ],
   "note": "Exact for texts in ASCII, and for all texts whenever no panic occurs (with assumptions on the conversion to lower case); false for texts outside ASCII, where cutting at a byte offset may panic."
  },
  {
   "property": "C46",
   "status": "proved",
   "theorems": [
    "Rustextile.C46_setters",
    "Rustextile.C46_options"
   ],
   "note": ""
  },
  {
   "property": "C47",
   "status": "partial",
   "theorems": [
    "Rustextile.C47_negation"
   ],
   "note": "False: set_raw_blocks has no effect on any text."
  },
  {
   "property": "C48",
   "status": "proved",
   "theorems": [
    "Rustextile.C48_counters",
    "Rustextile.C48_initial"
   ],
   "note": ""
  },
  {
   "property": "C49",
   "status": "partial",
   "theorems": [
    "Rustextile.C49_url_end_partial",
    "Rustextile.C49_negation",
    "Rustextile.C49_negation_brackets"
   ],
   "note": "False: a '>' at the end is lost (C49_negation), and a matched ']' is lost when bracketed text follows it (C49_negation_brackets). Proved for every URL without '>': nothing but closing brackets is lost, and the URL kept does not end in punctuation."
  },
  {
   "property": "C50",
   "status": "partial",
   "theorems": [
    "Rustextile.C50_code_block_partial",
    "Rustextile.C50_negation"
   ],
   "note": "False: escaped twice. Proved for texts without & < >; in general the displayed text is the escaped one."
  },
  {
   "property": "C51",
   "status": "proved",
   "theorems": [
    "Rustextile.C51_documents"
   ],
   "note": "Same assumptions as C09; a notextile block must not contain break tags."
  },
  {
   "property": "C52",
   "status": "partial",
   "theorems": [
    "Rustextile.C52_verbatim_partial",
    "Rustextile.C16_documents_partial",
    "Rustextile.C52_negation"
   ],
   "note": "False: a newline is put after a break tag in the text. Proved for texts without ==, <notextile> and break tags that do not end in = or in the beginning of a break tag; a text with a colon in it must not have a letter, digit or colon at its ends."
  },
  {
   "property": "C53",
   "status": "partial",
   "theorems": [
    "Rustextile.C53_link_partial",
    "Rustextile.C16_documents_partial",
    "Rustextile.C40_documents_partial"
   ],
   "note": "Proved: the exact HTML of a link alone, and of any number of links among other inline elements in documents with lists. Titles, classes and `$` as text are in C83 to C86 and C92. Missing: texts of links with markup in them, aliases, images as texts; addresses with & or @, brackets or characters outside ASCII; relative addresses with a query or fragment."
  },
  {
   "property": "C54",
   "status": "proved",
   "theorems": [
    "Rustextile.C54_attributes"
   ],
   "note": "Every combination of alignment, paddings and groups, in every order of groups; names of letters, digits, - and _. Elements of tables are excluded (they take further attributes)."
  },
  {
   "property": "C55",
   "status": "proved",
   "theorems": [
    "Rustextile.C55_documents"
   ],
   "note": "Same assumptions as C09, and on lower case as C40. Where `(` is written as padding without any `)` in the attributes, the text must have no `)` in it (C22 shows what may happen otherwise). Restricted mode recognises only the alignment `=` (the others are escaped before). A verbatim block with a colon in it must not begin or end with a letter, digit or colon."
  },
  {
   "property": "C56",
   "status": "proved",
   "theorems": [
    "Rustextile.C56_footnotes"
   ],
   "note": "Same assumptions as C55. Texts with references are ordinary text otherwise (no other inline markup in the same block), and no reference follows a space."
  },
  {
   "property": "C57",
   "status": "proved",
   "theorems": [
    "Rustextile.C57_tables"
   ],
   "note": "Same assumptions as C56; lite mode is excluded for tables. Cells are ordinary text; an ordinary cell does not begin with a full stop or slash. Attributes of tables, rows and cells, captions and columns are not covered."
  },
  {
   "property": "C58",
   "status": "partial",
   "theorems": [
    "Rustextile.C58_row_order_partial",
    "Rustextile.C58_row_order_fails"
   ],
   "note": "False: rows before the first section come after all sections. Proved for tables without sections or starting with one, in documents as in C57."
  },
  {
   "property": "C59",
   "status": "partial",
   "theorems": [
    "Rustextile.C59_cell_kept_partial",
    "Rustextile.C59_text_kept_fails"
   ],
   "note": "False: text before a table in the same block is lost. Proved for the cells of tables in documents as in C57."
  },
  {
   "property": "C60",
   "status": "proved",
   "theorems": [
    "Rustextile.C60_signs"
   ],
   "note": "Same assumptions as C57. The texts between the signs are ordinary text (no inline markup, references or links in the same block); in restricted mode character references are excluded, because they are escaped. Each sign is in a place where it is meant to be recognised (Spec.Sign.Fits): quotation marks open after white space before a letter or digit and close before white space, comma, full stop or slash. Acronyms, capitals and dimensions are not covered."
  },
  {
   "property": "C61",
   "status": "partial",
   "theorems": [
    "Rustextile.C61_apostrophe_partial",
    "Rustextile.C61_apostrophe_fails"
   ],
   "note": "False: the second apostrophe of rock'n'roll becomes an opening quotation mark. Proved for one apostrophe in ordinary text."
  },
  {
   "property": "C62",
   "status": "partial",
   "theorems": [
    "Rustextile.C62_text_kept_partial",
    "Rustextile.C62_text_kept_fails"
   ],
   "note": "False: in `[c]files` the word is taken for a URL and lost. Proved in documents as in C60."
  },
  {
   "property": "C63",
   "status": "proved",
   "theorems": [
    "Rustextile.C63_images"
   ],
   "note": "Same assumptions as C60, with images on and without sizes. Addresses as for links; titles without quotation marks, parentheses and at signs; the texts around images are ordinary text, and there is a space before an image."
  },
  {
   "property": "C64",
   "status": "partial",
   "theorems": [
    "Rustextile.C64_alt_text_partial",
    "Rustextile.C64_alt_text_fails"
   ],
   "note": "False in restricted mode: an ampersand in the title is escaped twice. Proved in documents as in C63."
  },
  {
   "property": "C65",
   "status": "proved",
   "theorems": [
    "Rustextile.C65_endnotes"
   ],
   "note": "Same assumptions as C63. Texts are ordinary text with references; definitions are one line of ordinary text; at most one list, with at least one item and at most 26 references to a note; no options on the list."
  },
  {
   "property": "C66",
   "status": "partial",
   "theorems": [
    "Rustextile.C66_list_order_partial",
    "Rustextile.C66_list_order_fails"
   ],
   "note": "False: from ten notes on the numbers are sorted as texts. Proved for at most nine notes, in documents as in C65."
  },
  {
   "property": "C67",
   "status": "proved",
   "theorems": [
    "Rustextile.C67_extended"
   ],
   "note": "Same assumptions as C63. What follows an extended block is text with inline markup (code: any lines); extended comments are not covered."
  },
  {
   "property": "C68",
   "status": "partial",
   "theorems": [
    "Rustextile.C68_code_partial",
    "Rustextile.C68_code_fails"
   ],
   "note": "False in restricted mode: code is escaped twice. Proved in documents as in C67 if the mode is not restricted."
  },
  {
   "property": "C69",
   "status": "proved",
   "theorems": [
    "Rustextile.C69_table_attributes"
   ],
   "note": "Assumptions as in C63. Alignments, classes with an identifier and languages, in this order; names of letters and digits; in restricted mode no alignment but centring; no column groups."
  },
  {
   "property": "C70",
   "status": "partial",
   "theorems": [
    "Rustextile.C70_cell_attributes_partial",
    "Rustextile.C70_vertical_fails",
    "Rustextile.C70_class_fails"
   ],
   "note": "False: vertical alignment after a heading mark or a number of columns is lost; markup in class names; attributes of rows in another order are lost. Proved in documents as in C69."
  },
  {
   "property": "C71",
   "status": "partial",
   "theorems": [
    "Rustextile.C71_cells_kept_partial",
    "Rustextile.C71_cells_kept_fails"
   ],
   "note": "False: a centred cell at the start of a table becomes a caption, with its whole row. Proved in documents as in C69."
  },
  {
   "property": "C72",
   "status": "proved",
   "theorems": [
    "Rustextile.C72_definition_lists"
   ],
   "note": "Assumptions as in C69. Terms and definitions are ordinary words on one line; classes with an identifier, and languages, in this order; some term has a definition."
  },
  {
   "property": "C73",
   "status": "partial",
   "theorems": [
    "Rustextile.C73_terms_kept_partial",
    "Rustextile.C73_terms_kept_fails"
   ],
   "note": "False: a line without a blank after its dash vanishes, and a definition without a term. Proved in documents as in C72."
  },
  {
   "property": "C74",
   "status": "partial",
   "theorems": [
    "Rustextile.C74_term_attributes_partial",
    "Rustextile.C74_term_attributes_fails"
   ],
   "note": "False: the attributes of a first term without definition are given to the list too. Proved for all terms in documents as in C72, and that the list has none if its first term has a definition."
  },
  {
   "property": "C75",
   "status": "proved",
   "theorems": [
    "Rustextile.C75_capitals"
   ],
   "note": "Documents of paragraphs and headings in which words of three or more capitals A-Z, possibly with lower-case letters after them or with an explanation of ordinary text of four or more characters in brackets, stand behind white space, together with all blocks of C72."
  },
  {
   "property": "C76",
   "status": "partial",
   "theorems": [
    "Rustextile.C76_capitals_marked_partial",
    "Rustextile.C76_capitals_marked_fails"
   ],
   "note": "Proved for documents as in C75. False in general: HTML5 is not marked."
  },
  {
   "property": "C77",
   "status": "partial",
   "theorems": [
    "Rustextile.C77_explanations_partial",
    "Rustextile.C77_explanations_fails"
   ],
   "note": "Proved for explanations that are ordinary text, in documents as in C75. False in general: a link in an explanation ends the attribute, also in restricted mode."
  },
  {
   "property": "C78",
   "status": "proved",
   "theorems": [
    "Rustextile.C78_classes"
   ],
   "note": "Documents of paragraphs and headings in which marked parts (all ten markers) have class names of letters, digits and spaces and identifiers of letters and digits, together with all blocks of C75."
  },
  {
   "property": "C79",
   "status": "partial",
   "theorems": [
    "Rustextile.C79_classes_kept_partial",
    "Rustextile.C79_classes_kept_fails"
   ],
   "note": "Proved for documents as in C78. False in general: an identifier with a space in it is lost, and a group in brackets with quotation marks in it is lost with its words."
  },
  {
   "property": "C80",
   "status": "partial",
   "theorems": [
    "Rustextile.C80_classes_restricted_partial"
   ],
   "note": "Proved for documents as in C78. Missing: parts with other attributes, and parts within parts."
  },
  {
   "property": "C81",
   "status": "proved",
   "theorems": [
    "Rustextile.C81_citations"
   ],
   "note": "Documents of quotations with attributes and the address of their source (visible ASCII characters; in restricted mode without those that are escaped), whose text has marked parts and line breaks, together with all blocks of C78."
  },
  {
   "property": "C82",
   "status": "partial",
   "theorems": [
    "Rustextile.C82_address_kept_partial",
    "Rustextile.C82_address_kept_fails",
    "Rustextile.C82_address_kept_fails_heading"
   ],
   "note": "Proved for documents as in C81. False in general: in restricted mode an ampersand in the address makes parse panic, and the address of a block that is not a quotation is lost."
  },
  {
   "property": "C83",
   "status": "proved",
   "theorems": [
    "Rustextile.C83_link_attributes"
   ],
   "note": "Documents of paragraphs, headings and quotations with links that have groups of classes and identifiers, styles and languages before their text (ordinary words) and a title behind it, together with all blocks of C81."
  },
  {
   "property": "C84",
   "status": "partial",
   "theorems": [
    "Rustextile.C84_link_titles_partial",
    "Rustextile.C84_link_titles_fails",
    "Rustextile.C84_link_titles_fails_brackets"
   ],
   "note": "Proved for documents as in C83 when the mode is not restricted or the title has no ampersand. False in general: in restricted mode the title is escaped twice, and a title with brackets in it becomes part of the text."
  },
  {
   "property": "C85",
   "status": "partial",
   "theorems": [
    "Rustextile.C85_link_classes_partial",
    "Rustextile.C85_link_classes_fails"
   ],
   "note": "Proved for links with a group of a class and an identifier in documents as in C83, when the mode is not restricted. False in general: an identifier with a space in it is lost."
  },
  {
   "property": "C86",
   "status": "partial",
   "theorems": [
    "Rustextile.C86_links_restricted_partial"
   ],
   "note": "Proved for documents as in C83. Missing: links with other texts and attributes, such as inline elements in their text."
  },
  {
   "property": "C87",
   "status": "proved",
   "theorems": [
    "Rustextile.C87_raw_lines"
   ],
   "note": "Documents of HTML tags of rules and images on lines of their own (unrestricted mode), of indented texts with links (every mode), and of all blocks of C83."
  },
  {
   "property": "C88",
   "status": "partial",
   "theorems": [
    "Rustextile.C88_rules_kept_partial",
    "Rustextile.C88_rules_kept_fails",
    "Rustextile.C88_rules_kept_fails_beside"
   ],
   "note": "Proved for tags of rules and images, in lower case, in a block of their own, in documents as in C87. False in general: tags of line breaks are rewritten, and a rule that is next to a line of text goes into its paragraph."
  },
  {
   "property": "C89",
   "status": "partial",
   "theorems": [
    "Rustextile.C89_indented_kept_partial"
   ],
   "note": "Proved for texts of ordinary words, only the first line of which starts with spaces, in documents as in C87; C87 gives the HTML if they have links. Missing: other inline markup in indented texts."
  },
  {
   "property": "C90",
   "status": "proved",
   "theorems": [
    "Rustextile.C90_unblocked"
   ],
   "note": "Texts with marked parts, with and without classes and identifiers, in every mode."
  },
  {
   "property": "C91",
   "status": "partial",
   "theorems": [
    "Rustextile.C91_paragraph_of_unblocked_partial",
    "Rustextile.C91_paragraph_of_unblocked_fails"
   ],
   "note": "Proved for texts with marked parts as in C90 that do not start like another block. False in general: code, for example, is looked for in paragraphs only."
  },
  {
   "property": "C92",
   "status": "partial",
   "theorems": [
    "Rustextile.C92_link_address_partial",
    "Rustextile.C92_link_address_fails"
   ],
   "note": "Proved for absolute addresses that are ordinary text after their scheme, in documents as in C83. False in general: dashes and dimension signs are also replaced in the address shown. Missing: relative addresses and aliases."
  },
  {
   "property": "C93",
   "status": "partial",
   "theorems": [
    "Rustextile.C93_safe_partial",
    "Rustextile.C93_C94_extended_partial",
    "Rustextile.C93_C94_endnotes_partial",
    "Rustextile.C93_safe_fails"
   ],
   "note": "Proved for documents as in C87, with extended blocks as in C67, and with endnotes as in C65. False in general: the text of a link written as `$` is not escaped. Missing: nested markup, link aliases, and documents that mix these three kinds."
  },
  {
   "property": "C94",
   "status": "partial",
   "theorems": [
    "Rustextile.C94_no_tags_partial",
    "Rustextile.C93_C94_extended_partial",
    "Rustextile.C93_C94_endnotes_partial",
    "Rustextile.C94_no_tags_fails"
   ],
   "note": "Proved for documents as in C87, with extended blocks as in C67, and with endnotes as in C65, in every mode. False in general: code in the explanation of an acronym puts an element into the value of an attribute. Missing: as in C93."
  },
  {
   "property": "C95",
   "status": "partial",
   "theorems": [
    "Rustextile.C95_piecewise_partial",
    "Rustextile.C95_piecewise_fails"
   ],
   "note": "Proved for documents as in C87, if neither items of numbered lists nor footnotes are counted in the first one. False in general: the numbers of lists go on in the same document."
  },
  {
   "property": "C96",
   "status": "partial",
   "theorems": [
    "Rustextile.C96_kinds_partial",
    "Rustextile.C96_extended_partial",
    "Rustextile.C96_endnotes_partial"
   ],
   "note": "Proved for documents as in C87, with extended blocks as in C67, and with endnotes as in C65. Missing: other documents."
  },
  {
   "property": "C97",
   "status": "partial",
   "theorems": [
    "Rustextile.C97_identifiers_partial",
    "Rustextile.C97_extended_partial",
    "Rustextile.C97_endnotes_partial",
    "Rustextile.C97_identifiers_fails"
   ],
   "note": "False for a text with the token of one of the parsers in it. Proved for documents as in C87, with extended blocks as in C67, and with endnotes as in C65."
  },
  {
   "property": "C98",
   "status": "partial",
   "theorems": [
    "Rustextile.C98_lite_partial",
    "Rustextile.C98_extended_partial",
    "Rustextile.C98_endnotes_partial",
    "Rustextile.C98_lite_fails"
   ],
   "note": "False for marks before a sign at the end of a text, which lite mode does not read. Proved for documents as in C87, with extended blocks as in C67, and with endnotes as in C65, as long as they are written for both modes."
  },
  {
   "property": "C99",
   "status": "proved",
   "theorems": [
    "Rustextile.C99_sizes_ignored",
    "Rustextile.C99_sizes_matter"
   ],
   "note": "For every text. C99_sizes_matter is an example with images, where it makes a difference."
  }
 ]
}