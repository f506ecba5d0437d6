{"id": "C01", "title": "Cross-reference table points at every object", "statement": "For every document that is written successfully, the byte offset the file's xref table gives for object n is exactly the position at which the bytes 'n 0 obj' start, for every object n; the number after 'startxref' is the position of the 'xref' keyword; the table has one line of exactly 20 bytes per object and /Size is the number of objects plus one.", "quantifier": "every sequence of objects a document can produce, of any number and any byte contents, with every total size below 10^10 bytes", "why_tests_cant": "Tests open a few generated files in a reader; offsets depend on the byte length of all preceding objects, so any single document says nothing about the others, and readers silently repair bad tables.", "anchors": ["src/pdfje/atoms.py:write", "src/pdfje/atoms.py:_write_trailer", "src/pdfje/atoms.py:_write_obj"]}
{"id": "C02", "title": "Object numbers are complete and references resolve", "statement": "In every written document the object numbers are exactly 1..N, each used once, and every indirect reference written in the page tree, pages, resources or embedded font objects (and the trailer's /Root) names an object that is in the file and has the expected kind.", "quantifier": "every number of pages (at least one) and every number of embedded fonts", "why_tests_cant": "The numbering is spread over three counters stepping by 2 and 7; a test fixes one page count and one font count.", "anchors": ["src/pdfje/document.py:_doc_objects", "src/pdfje/document.py:_write_headers", "src/pdfje/page.py:RenderedPage.to_atoms", "src/pdfje/resources.py:Resources.to_objects", "src/pdfje/fonts/embed.py:Subset.to_objects"]}
{"id": "C03", "title": "Page tree lists exactly the rendered pages in order", "statement": "The /Kids array of the written page tree lists, in order, the page objects of exactly the pages that the document's items rendered, /Count equals their number, and the k-th page object has the k-th rendered page's size, rotation and content stream.", "quantifier": "every list of document items, each rendering any number of pages", "why_tests_cant": "Needs induction on the number of pages; tests look at one or two documents.", "anchors": ["src/pdfje/document.py:_doc_objects", "src/pdfje/document.py:_write_headers", "src/pdfje/page.py:RenderedPage"]}
{"id": "C04", "title": "Stream length framing is exact", "statement": "For every stream written (page contents, font files, maps), the /Length entry is exactly the number of bytes between 'stream\\n' and '\\nendstream', whatever those bytes are (including bytes that spell 'endstream'), and decompressing those bytes gives the original content.", "quantifier": "every byte content, every extra dictionary entry list, every compressor with a left inverse", "why_tests_cant": "Contents are arbitrary binary; a test cannot try all of them, in particular contents that contain the delimiter.", "anchors": ["src/pdfje/atoms.py:Stream.write"]}
{"id": "C05", "title": "A document without pages is refused", "statement": "Writing a document whose items render no page at all always ends in an error, never in a complete file; Document() without arguments renders exactly one page.", "quantifier": "every list of items that renders zero pages", "why_tests_cant": "The check relies on the scoping of a loop variable; tests cover the empty list only.", "anchors": ["src/pdfje/document.py:_doc_objects", "src/pdfje/document.py:Document.__init__"]}
{"id": "C06", "title": "Literal strings survive a PDF reader", "statement": "For every byte string, a PDF reader that follows the literal string rules (escapes, octal codes, balanced parentheses, end-of-line normalisation) reads back exactly that byte string from what is written, and stops exactly at the end of it.", "quantifier": "every byte string of every length and every following text", "why_tests_cant": "Unbalanced parentheses, backslashes and carriage returns can occur in any combination; the fuzz test only checks a length inequality.", "anchors": ["src/pdfje/atoms.py:LiteralStr.write", "src/pdfje/atoms.py:_escape"]}
{"id": "C07", "title": "Hex strings survive a PDF reader", "statement": "For every byte string, reading the written hexadecimal string gives back exactly that byte string.", "quantifier": "every byte string", "why_tests_cant": "Universal claim over an infinite domain.", "anchors": ["src/pdfje/atoms.py:HexString.write"]}
{"id": "C08", "title": "Every object written parses back to the same structure", "statement": "Any nesting of dictionaries, arrays, names, integers, references, strings and streams written to the file is read back by a PDF object reader as the same structure (reals as the value printed), whatever follows it; in particular consecutive integers are never mistaken for a reference.", "quantifier": "every object tree of any depth whose names consist of regular characters", "why_tests_cant": "Unbounded nesting and adjacency of tokens; tests check a handful of literal outputs.", "anchors": ["src/pdfje/atoms.py:Name.write", "src/pdfje/atoms.py:Int.write", "src/pdfje/atoms.py:Ref.write", "src/pdfje/atoms.py:Array.write", "src/pdfje/atoms.py:_write_dict"]}
{"id": "C09", "title": "Sanitised names are single PDF name tokens", "statement": "For every byte string s (e.g. any font name), the sanitised form is a single PDF name token: a reader reading '/' followed by it consumes all of it and decodes it to s without the bytes that are dropped.", "quantifier": "every byte string used as a font name", "why_tests_cant": "The unit test asserts the output for one string containing all printable characters; whether a reader can read it back is not tested.", "anchors": ["src/pdfje/atoms.py:sanitize_name", "src/pdfje/atoms.py:_sanitize_name_char", "src/pdfje/fonts/embed.py:Subset.to_objects"]}
{"id": "C10", "title": "Numbers written are valid PDF numbers and accurate", "statement": "Every real number written (coordinates, sizes, colours, kerning) is a valid PDF number (no exponent notation), and its value differs from the requested one by at most 5 parts in a million.", "quantifier": "every rational number", "why_tests_cant": "The output format changes at magnitude boundaries; tests use a few friendly coordinates.", "anchors": ["src/pdfje/atoms.py:Real.write", "src/pdfje/draw.py", "src/pdfje/typeset/state.py:SetFont.__iter__", "src/pdfje/typeset/layout.py:render_text"]}
{"id": "C11", "title": "An interrupted write is always recognisable", "statement": "If writing to a path or stream stops after any number of chunks (error, crash, full disk), the target holds a prefix of the complete file, and unless all chunks were written that prefix does not end with the '%%EOF' trailer line; the chunks written to a path, a file object and the iterator form are the same.", "quantifier": "every document and every crash point between chunks", "why_tests_cant": "Quantifies over every crash point.", "anchors": ["src/pdfje/document.py:Document.write", "src/pdfje/document.py:Document._write_to_path", "src/pdfje/atoms.py:write"]}
{"id": "C12", "title": "Output depends only on the document and the random file ID", "statement": "Two writes of the same document give files of the same length that are identical except inside the two hexadecimal strings of the trailer's /ID entry.", "quantifier": "every object sequence, every pair of 16-byte random values", "why_tests_cant": "Randomness: tests can sample a few values.", "anchors": ["src/pdfje/atoms.py:_write_trailer", "src/pdfje/atoms.py:_generate_file_id"]}
{"id": "C13", "title": "Builtin fonts encode one byte per character, faithfully", "statement": "With a standard font every string is encoded to exactly one byte per character; decoding those bytes as WinAnsi (cp1252) gives back every character that cp1252 has, and '?' for every other character.", "quantifier": "every string of unicode characters", "why_tests_cant": "1.1 million code points and all strings over them.", "anchors": ["src/pdfje/fonts/common.py:BuiltinFont.encode"]}
{"id": "C14", "title": "Embedded fonts: one stable two-byte code per character", "statement": "Over any history of encode calls on an embedded font with fewer than 65535 distinct characters, each string is encoded to exactly two bytes per character, a character always gets the same code, different characters get different codes, and codes are numbered 0,1,2,... in order of first use.", "quantifier": "every sequence of encode calls with arbitrary strings", "why_tests_cant": "A property of all histories of a mutable table.", "anchors": ["src/pdfje/fonts/embed.py:Subset.encode", "src/pdfje/fonts/embed.py:Subset.cids"]}
{"id": "C15", "title": "Embedded font tables agree with the codes used in the text", "statement": "For any history of encode calls, in the font objects written afterwards the c-th entry of the width array, the c-th entry of the CID-to-glyph map and the ToUnicode entry of code c all describe the one character that was encoded as c; so extracting text through the ToUnicode map gives back the original strings.", "quantifier": "every sequence of encode calls with arbitrary strings, every cmap and width table", "why_tests_cant": "Relies on dict insertion order equalling numeric order after every history.", "anchors": ["src/pdfje/fonts/embed.py:_encode_widths", "src/pdfje/fonts/embed.py:_encode_cid_gid_map", "src/pdfje/fonts/embed.py:_unicode_map"]}
{"id": "C16", "title": "ToUnicode targets are correct UTF-16BE", "statement": "For every unicode scalar value the hexadecimal text written in the ToUnicode map is the UTF-16BE encoding of that character: decoding it gives that character back.", "quantifier": "every unicode scalar value", "why_tests_cant": "1.1 million values; tests use a few.", "anchors": ["src/pdfje/fonts/embed.py:_utf16be_hex"]}
{"id": "C17", "title": "A typeface variant is one font per document, names never clash", "statement": "Over any history of font requests while a document is rendered, requesting the same typeface, weight and slant again gives the same font; different embedded variants get different resource names; and the font dictionary written at the end contains, for every font requested, an entry under its name that describes that very font.", "quantifier": "every sequence of font requests", "why_tests_cant": "All histories of a mutable registry.", "anchors": ["src/pdfje/resources.py:Resources.font", "src/pdfje/resources.py:Resources.to_atoms", "src/pdfje/resources.py:Resources.to_objects"]}
{"id": "C18", "title": "The font resource dictionary has no duplicate keys", "statement": "The /Font resource dictionary of every written document has pairwise different keys.", "quantifier": "every sequence of font requests over the five standard typefaces and any embedded fonts", "why_tests_cant": "Depends on which combination of variants is used.", "anchors": ["src/pdfje/resources.py:Resources.to_atoms", "src/pdfje/fonts/builtins.py:symbol", "src/pdfje/fonts/builtins.py:zapf_dingbats"]}
{"id": "C19", "title": "Kerning pairs are found at the right place", "statement": "For any font and text, the list of kerning adjustments contains exactly one adjustment for every adjacent pair (including the pair formed with the preceding character, if given) with a non-zero table value, located before the second character of the pair, in ascending order of position.", "quantifier": "every kerning table, every string, every optional preceding character", "why_tests_cant": "Universal over tables and strings.", "anchors": ["src/pdfje/fonts/common.py:kern"]}
{"id": "C20", "title": "Kerned text shows exactly the encoded text", "statement": "For any text, kerning adjustments at ascending positions and fixed-width encoding, the array written for the text shows exactly the encoded text, split exactly at the adjusted characters, each adjustment written negated just before its character.", "quantifier": "every text, adjustment list and fixed-width encoding", "why_tests_cant": "Slice arithmetic with one- and two-byte encodings for arbitrary positions.", "anchors": ["src/pdfje/typeset/words.py:_encode_kerning", "src/pdfje/typeset/words.py:Slug.to_atoms"]}
{"id": "C21", "title": "Measured width equals displayed width", "statement": "For every word (plain, mixed-style, with trailing space, hyphenated, indented, stripped of its initial kerning, justified), the width used for layout equals the distance a PDF viewer advances when showing what is written for it.", "quantifier": "every font metrics, text, style sequence and every composition of the word operations", "why_tests_cant": "Requires an invariant over all compositions of operations and all metrics.", "anchors": ["src/pdfje/typeset/words.py:Slug", "src/pdfje/typeset/words.py:MixedSlug", "src/pdfje/typeset/words.py:Word", "src/pdfje/typeset/words.py:WithCmd", "src/pdfje/typeset/words.py:TrailingSpace"]}
{"id": "C22", "title": "Style combination is associative with right preference", "statement": "Combining styles with | is associative, Style.EMPTY is neutral on both sides, combining a style with itself changes nothing, every attribute of a|b is b's if b sets it and a's otherwise; and applying a|b on top of a full style is the same as applying a and then b.", "quantifier": "all styles", "why_tests_cant": "Universal algebraic law.", "anchors": ["src/pdfje/style.py:Style.__or__", "src/pdfje/style.py:StyleFull.__or__", "src/pdfje/style.py:_fallback"]}
{"id": "C23", "title": "Fonts and colours behave as the styles they stand for", "statement": "Writing a font, an RGB colour or a hex string in place of a style in a | b gives the same result as first turning each operand into a Style, for every mix of operand kinds for which the operator is defined; malformed hex strings are rejected.", "quantifier": "all pairs of style-like operands", "why_tests_cant": "Nine dispatch paths over infinite domains.", "anchors": ["src/pdfje/style.py:Style.__or__", "src/pdfje/style.py:Style.__ror__", "src/pdfje/style.py:Style.parse", "src/pdfje/style.py:_typeface__or__", "src/pdfje/style.py:_rgb__or__", "src/pdfje/style.py:_rgb__ror__"]}
{"id": "C24", "title": "Nested spans: every string gets exactly its effective style", "statement": "For any tree of nested spans, the sequence of text passages produced has exactly the strings of the tree in order, and the text state in force at each string is the state of the base style overlaid with the styles of its enclosing spans from outermost to innermost; the state after a span is the one before it.", "quantifier": "every finite tree of spans with arbitrary styles at every level", "why_tests_cant": "Unbounded nesting, state restored by deferred commands.", "anchors": ["src/pdfje/style.py:StyledMixin.flatten", "src/pdfje/style.py:Style.diff", "src/pdfje/style.py:StyleFull.diff", "src/pdfje/typeset/state.py:Chain.squash"]}
{"id": "C25", "title": "Merging style commands keeps their effect", "statement": "Merging a sequence of style commands into one command has the same effect on the text state, and the same visible effect (font, size, colour) in the file, as the sequence.", "quantifier": "every finite sequence of commands, including already merged ones", "why_tests_cant": "Which commands are dropped depends on their types and order.", "anchors": ["src/pdfje/typeset/state.py:Chain.squash", "src/pdfje/typeset/parse.py:_fold_commands", "src/pdfje/typeset/parse.py:_complete_word"]}
{"id": "C26", "title": "Explicit newlines split text and nothing else", "statement": "Splitting styled text at newlines (LF or CRLF) loses no character other than the newlines, keeps the order, produces one more group than there are newlines, and keeps the style in force at every character.", "quantifier": "every sequence of styled passages with arbitrary text", "why_tests_cant": "Newlines may occur anywhere, also several per passage and at its ends.", "anchors": ["src/pdfje/typeset/state.py:splitlines"]}
{"id": "C27", "title": "Word splitting preserves the text", "statement": "Splitting styled text (without newlines) into words loses no character, adds none and keeps the order and the style of every character.", "quantifier": "every sequence of styled passages", "why_tests_cant": "Style changes can occur at any character, passages may be empty.", "anchors": ["src/pdfje/typeset/parse.py:into_words", "src/pdfje/typeset/parse.py:_parse", "src/pdfje/typeset/parse.py:_parse_simple_words", "src/pdfje/typeset/parse.py:_complete_word", "src/pdfje/typeset/words.py:Word.new"]}
{"id": "C28", "title": "Lines may break only at documented break opportunities", "statement": "Every word except possibly the last ends with a space, hyphen, zero-width space or em dash, and a break opportunity never occurs strictly inside a word (except between spaces of one run).", "quantifier": "every text", "why_tests_cant": "Universal over strings.", "anchors": ["src/pdfje/typeset/parse.py:_WORD_RE", "src/pdfje/typeset/parse.py:_parse_simple_words"]}
{"id": "C29", "title": "Syllables recombine to the word", "statement": "For every hyphenation function whose pieces join to its input and are not empty, cutting a word into syllables (including punctuation around and between word characters) yields non-empty pieces whose concatenation is the word; with hyphens=None a word is always one piece.", "quantifier": "every word and every well-behaved hyphenation function", "why_tests_cant": "Higher-order and unbounded.", "anchors": ["src/pdfje/typeset/words.py:into_syllables", "src/pdfje/typeset/hyphens.py:never_hyphenate", "src/pdfje/typeset/hyphens.py:_pyphenate"]}
{"id": "C30", "title": "The built-in hyphenator is safe", "statement": "For every pattern table and every exception list made of letters a to z and hyphens (as the built-in one is), hyphenating a word gives pieces whose concatenation is the word; words of at most four letters are never split; and for words not in the exception list whose lower-casing keeps their length the first and last piece have at least two characters.", "quantifier": "every pattern table, every exception list of letters a-z and hyphens, every word", "why_tests_cant": "Independent of the English pattern data; tests try a few words.", "anchors": ["src/pdfje/vendor/hyphenate.py:Hyphenator.hyphenate_word"]}
{"id": "C31", "title": "Hyphenating to a width fits, adds one hyphen and never fails", "statement": "When a word does not fit the remaining width, splitting it gives either nothing and the word, or a first part that (with its hyphen) fits in the width and whose text is a non-empty proper prefix of syllables plus one hyphen, and a rest with the remaining syllables and the trailing space; it never raises an error as long as a hyphen never has negative advance.", "quantifier": "every word, width and font metrics", "why_tests_cant": "The error branch is declared unreachable; that is a claim about all widths and syllable lists.", "anchors": ["src/pdfje/typeset/words.py:Word.hyphenate", "src/pdfje/typeset/words.py:Word.minimal_box", "src/pdfje/typeset/words.py:WithCmd.hyphenate"]}
{"id": "C32", "title": "First-fit layout conserves text", "statement": "With optimal=False, for any words and columns, the lines placed in the columns, read in order, contain exactly the characters of the paragraph in order, except that a single space may be dropped at a line end and a hyphen added where a word is broken.", "quantifier": "all words, column sizes, line heights, orphan settings", "why_tests_cant": "All column shapes and texts, including back-tracking for orphans.", "anchors": ["src/pdfje/typeset/firstfit.py:take_line", "src/pdfje/typeset/firstfit.py:take_box", "src/pdfje/typeset/firstfit.py:_shape_simple", "src/pdfje/typeset/firstfit.py:_shape_avoid_orphans"]}
{"id": "C33", "title": "First-fit lines fit the column", "statement": "With optimal=False every line but the last of a paragraph is at most as wide as its column unless it consists of a single smallest unbreakable fragment, and the width recorded for a line is the sum of the widths of the words on it.", "quantifier": "all words and column widths", "why_tests_cant": "Universal over metrics and widths.", "anchors": ["src/pdfje/typeset/firstfit.py:take_line"]}
{"id": "C34", "title": "First-fit is greedy", "statement": "With optimal=False a line is ended only when the next unbreakable piece would not have fitted on it.", "quantifier": "all words and column widths", "why_tests_cant": "Maximality is a universal statement.", "anchors": ["src/pdfje/typeset/firstfit.py:take_line"]}
{"id": "C35", "title": "Layout always makes progress and terminates", "statement": "For any finite paragraph and any sequence of columns, first-fit layout terminates after finitely many columns; each column after the first receives at least one line.", "quantifier": "all paragraphs and all infinite column sequences", "why_tests_cant": "Non-termination cannot be observed by a test; the claim is about all column shapes.", "anchors": ["src/pdfje/typeset/firstfit.py:_shape_simple", "src/pdfje/typeset/firstfit.py:_shape_avoid_orphans", "src/pdfje/typeset/firstfit.py:take_box"]}
{"id": "C36", "title": "Lines never overflow a column's height", "statement": "The lines of text put in a column take at most the free height of the column, except that one line is put in an empty column that is lower than one line.", "quantifier": "all paragraphs, column heights and line heights", "why_tests_cant": "Floor division at arbitrary heights.", "anchors": ["src/pdfje/typeset/firstfit.py:take_box", "src/pdfje/typeset/optimum.py:ColumnQueue", "src/pdfje/typeset/optimum.py:_lines_per_column", "src/pdfje/layout/common.py:ColumnFill.add"]}
{"id": "C37", "title": "First-fit justified lines fill the column exactly", "statement": "With align='justify' and optimal=False every line that is not the last of the paragraph and has a word space is displayed exactly as wide as its column; other lines keep their width.", "quantifier": "all lines, fonts, sizes", "why_tests_cant": "Exact real arithmetic over all lines.", "anchors": ["src/pdfje/typeset/firstfit.py:Line.justify", "src/pdfje/typeset/words.py:Word.extend_tail"]}
{"id": "C38", "title": "Optimal line breaks form a partition of the paragraph", "statement": "The break positions returned by the optimal algorithm are strictly increasing, start after the beginning and end exactly at the end of the paragraph, and per-line demerits add up to the total.", "quantifier": "all box lists, width functions, tolerances and penalties", "why_tests_cant": "Universal.", "anchors": ["src/pdfje/typeset/knuth_plass.py:optimum_fit", "src/pdfje/typeset/knuth_plass.py:_EndNode.unroll"]}
{"id": "C39", "title": "Optimal line breaks respect the tolerance", "statement": "Every line of the result except the last has adjustment ratio between -1 and the tolerance for the width of its line number, and the last line need not shrink by 1 or more.", "quantifier": "all box lists, width functions, tolerances", "why_tests_cant": "Universal.", "anchors": ["src/pdfje/typeset/knuth_plass.py:optimum_fit", "src/pdfje/typeset/knuth_plass.py:ratio_justified", "src/pdfje/typeset/knuth_plass.py:ratio_ragged"]}
{"id": "C40", "title": "Optimal line breaks are optimal", "statement": "No other sequence of feasible line breaks has smaller total demerits than the one returned.", "quantifier": "all box lists, width functions, tolerances, penalties and all competing break sequences", "why_tests_cant": "Exponentially many competitors for every input.", "anchors": ["src/pdfje/typeset/knuth_plass.py:optimum_fit", "src/pdfje/typeset/knuth_plass.py:_BreakNetwork"]}
{"id": "C41", "title": "Optimal line breaking fails exactly when nothing is feasible", "statement": "The algorithm reports 'no feasible breaks' if and only if no sequence of feasible breaks exists.", "quantifier": "all inputs", "why_tests_cant": "Completeness statement over all candidate sequences.", "anchors": ["src/pdfje/typeset/knuth_plass.py:optimum_fit", "src/pdfje/typeset/knuth_plass.py:_optimal_end"]}
{"id": "C42", "title": "Optimal layout succeeds for every paragraph", "statement": "Laying out a paragraph with the default settings (optimal line breaking) never fails with an error.", "quantifier": "all paragraphs and column widths", "why_tests_cant": "Whether an input is infeasible at all tolerances is not something sampling decides.", "anchors": ["src/pdfje/typeset/optimum.py:find_breaks", "src/pdfje/typeset/knuth_plass.py:ratio_ragged"]}
{"id": "C43", "title": "Optimal layout conserves text", "statement": "With optimal=True the lines read in order contain exactly the paragraph's characters in order, except that a single space may be dropped at a line end and a hyphen added where a word is broken.", "quantifier": "all words and all valid break sequences", "why_tests_cant": "Universal.", "anchors": ["src/pdfje/typeset/optimum.py:_to_boxes", "src/pdfje/typeset/optimum.py:_into_lines_ragged", "src/pdfje/typeset/optimum.py:shape"]}
{"id": "C44", "title": "Optimally justified lines fill the column exactly", "statement": "With align='justify' and optimal=True every line but the last that was set with a finite adjustment is displayed exactly as wide as its column.", "quantifier": "all paragraphs, fonts, widths", "why_tests_cant": "Exact arithmetic over all adjustments.", "anchors": ["src/pdfje/typeset/optimum.py:Line.stretch", "src/pdfje/typeset/words.py:Word.stretch_tail", "src/pdfje/typeset/optimum.py:_to_boxes"]}
{"id": "C45", "title": "Optimal layout sets each line for the column it lands in", "statement": "With optimal=True every line is broken for the width of the column it is finally placed in, no column gets more lines than fit, and no line is lost between columns, also after moving lines to avoid orphans.", "quantifier": "all paragraphs, all column sequences, orphan settings", "why_tests_cant": "The column queue is mutated during retries; all histories count.", "anchors": ["src/pdfje/typeset/optimum.py:ColumnQueue", "src/pdfje/typeset/optimum.py:_lines_per_column", "src/pdfje/typeset/optimum.py:shape"]}
{"id": "C46", "title": "Aligned text is displayed at the requested position", "statement": "For left, centred and right alignment each line of a text block is displayed with its left edge, centre or right edge at the requested x position (of the column or text location), and successive baselines are exactly one leading apart.", "quantifier": "all lists of lines, widths, leadings and positions", "why_tests_cant": "Positions are relative moves that accumulate over lines.", "anchors": ["src/pdfje/typeset/layout.py:_render_left", "src/pdfje/typeset/layout.py:_render_centered", "src/pdfje/typeset/layout.py:_render_right", "src/pdfje/typeset/optimum.py:_into_lines_ragged"]}
{"id": "C47", "title": "Text drawings show every character in its own style", "statement": "For any Text drawing, the characters a viewer shows are the characters of the content without newlines, in order, each in the font, size and colour of its effective style, line by line.", "quantifier": "all span trees and texts", "why_tests_cant": "End-to-end property over unbounded inputs.", "anchors": ["src/pdfje/draw.py:Text.render", "src/pdfje/draw.py:into_lines", "src/pdfje/draw.py:_TextLine"]}
{"id": "C48", "title": "Paragraphs show every character in its own style", "statement": "For any paragraph, every character is shown in the font, size and colour of its effective style.", "quantifier": "all span trees, texts and columns", "why_tests_cant": "End-to-end property over unbounded inputs.", "anchors": ["src/pdfje/typeset/layout.py:ShapedText.render", "src/pdfje/typeset/layout.py:ShapedText.pre_state", "src/pdfje/layout/paragraph.py:_fill_paragraph"]}
{"id": "C49", "title": "Column filling loses and duplicates nothing", "statement": "Laying out blocks over pages puts the columns each block filled on consecutive columns of consecutive pages in order; nothing put in a column earlier is lost, repeated or moved, and pages are emitted in order.", "quantifier": "all sequences of blocks that fill a prefix of the columns they are given, and all page templates", "why_tests_cant": "Iterator branching and look-ahead over unbounded page streams.", "anchors": ["src/pdfje/layout/common.py:fill_pages", "src/pdfje/layout/common.py:_fill_into", "src/pdfje/layout/pages.py:AutoPage.render"]}
{"id": "C50", "title": "A horizontal rule never repeats or overflows content", "statement": "A Rule is drawn once, between the column's margins, inside the column; when it does not fit in the current column it is put in the next one and the content before it is not repeated.", "quantifier": "all columns and margins", "why_tests_cant": "The only test is skipped; all column fill levels count.", "anchors": ["src/pdfje/layout/rule.py:Rule.into_columns"]}
{"id": "C51", "title": "Template page numbers are the physical page numbers", "statement": "In a document mixing explicit pages and automatic pages, the template callable is called for each automatic page with that page's 1-based position in the whole document.", "quantifier": "all lists of document items", "why_tests_cant": "Relies on a closure over a loop variable across unbounded items.", "anchors": ["src/pdfje/document.py:_doc_objects", "src/pdfje/layout/pages.py:AutoPage.render"]}
{"id": "C52", "title": "Blocks in a column are stacked without overlap", "statement": "The blocks in a column are placed from the top down, each starting exactly where the previous one ended, and the free height left is the column height minus the heights of the blocks.", "quantifier": "all sequences of blocks added to a column", "why_tests_cant": "Invariant over all sequences.", "anchors": ["src/pdfje/layout/common.py:ColumnFill"]}
{"id": "C53", "title": "Default column is the page minus its margins", "statement": "For every page size and every margin given as one number or a 2-, 3- or 4-tuple following the CSS convention, the default column has exactly these distances to the page's edges, and margins that leave no width are refused.", "quantifier": "all sizes and margins", "why_tests_cant": "Universal over reals.", "anchors": ["src/pdfje/page.py:_column", "src/pdfje/common.py:Sides.parse", "src/pdfje/page.py:Column.__init__"]}
{"id": "C54", "title": "Colours are always in range", "statement": "Every colour accepted has all components between 0 and 1; a six-digit hex string gives component k equal to its k-th byte divided by 255, and different hex strings of equal case give different colours.", "quantifier": "all hex strings and all numeric triples", "why_tests_cant": "16 million hex colours and all reals.", "anchors": ["src/pdfje/common.py:RGB.__post_init__", "src/pdfje/common.py:RGB.parse"]}
{"id": "C55", "title": "A polyline passes through its points in order", "statement": "Rendering a polyline with any mix of XY objects and tuples as points starts a path at the first point, draws a segment to each following point in order and ends with exactly one painting operator that matches fill, stroke and close; without points nothing is drawn.", "quantifier": "all point lists of any length and representation", "why_tests_cant": "Universal over lists; tests only use a tuple as first point.", "anchors": ["src/pdfje/draw.py:Polyline.render", "src/pdfje/draw.py:_finish"]}
{"id": "C56", "title": "Ellipses and circles are closed curves inside their box", "statement": "The path drawn for an ellipse or circle is a closed chain of four Bezier arcs through the four extreme points of its bounding box, symmetric about its centre, and stays within the bounding box.", "quantifier": "all centres and non-negative sizes, all curve parameters", "why_tests_cant": "Real-valued inequality for all parameters.", "anchors": ["src/pdfje/draw.py:_ellipse", "src/pdfje/draw.py:Circle.render"]}
{"id": "C57", "title": "Leading is the largest line height in use", "statement": "For positive font sizes and line spacings, the leading of a paragraph is the maximum of size times line spacing over the non-empty pieces of text in it, and that of the final state if there is no text.", "quantifier": "all passages", "why_tests_cant": "Universal.", "anchors": ["src/pdfje/typeset/state.py:max_lead"]}
{"id": "C58", "title": "Indentation moves only the first word", "statement": "Indenting a paragraph by any amount moves the first word to the right by exactly that amount and changes no other word and no text.", "quantifier": "all word lists and amounts", "why_tests_cant": "Universal.", "anchors": ["src/pdfje/typeset/words.py:indent_first", "src/pdfje/typeset/words.py:Slug.indent", "src/pdfje/typeset/words.py:Word.indent"]}
{"id": "C59", "title": "Orphan avoidance does what it says (first-fit)", "statement": "With avoid_orphans=True and optimal=False, a paragraph that starts in a partly filled column and continues in the next one never leaves exactly one line in the first, and a last column gets a single line only if it could not be fixed by moving one line.", "quantifier": "all paragraphs and columns", "why_tests_cant": "Universal over back-tracking outcomes.", "anchors": ["src/pdfje/typeset/firstfit.py:_shape_avoid_orphans"]}
{"id": "C60", "title": "Page content order", "statement": "A page's content stream consists of its own drawings in the given order followed by the laid-out columns in order; Page.add appends one drawing and changes nothing else.", "quantifier": "all pages, drawings, columns", "why_tests_cant": "Universal.", "anchors": ["src/pdfje/page.py:Page.fill", "src/pdfje/page.py:Page.render", "src/pdfje/page.py:Page.add", "src/pdfje/layout/pages.py:AutoPage.render"]}
{"id": "C61", "title": "Page content reads back as the operators of the page", "statement": "For every document that Document.write() writes completely, a reader that has only the bytes of the file finds the page object of each page, and the page's decompressed content stream, read by the syntax of content streams, is exactly the page's sequence of drawing and text operators in order (with operands within 5 parts in a million, text strings that stand for the given text in their font, and font names that are the keys under which the fonts were registered), provided the numbers can be printed without exponents.", "quantifier": "all documents (explicit and automatic pages), all pages, all drawings and texts", "why_tests_cant": "Every string, number and font name of every page has to be written so that it is one token with the right value: escapes, separators and operand order for all inputs.", "anchors": ["src/pdfje/draw.py", "src/pdfje/typeset/state.py", "src/pdfje/typeset/words.py:render_kerned", "src/pdfje/typeset/layout.py:render_text", "src/pdfje/page.py:RenderedPage.to_atoms", "src/pdfje/atoms.py:write"]}
{"id": "C62", "title": "Every font used on a page is in the page's resources", "statement": "For every document that is written completely, every font in which a page shows text is found, by a reader of the file's bytes, in the page's font resources under the name that the page uses: a standard font under its PostScript name, an embedded font with the font program made of the font file of the requested variant.", "quantifier": "all documents, pages, styles, typefaces", "why_tests_cant": "Fonts are registered while pages are rendered and written after all of them; that no page refers to a font that is missing must hold for every history.", "anchors": ["src/pdfje/resources.py:Resources", "src/pdfje/style.py", "src/pdfje/fonts/embed.py:Subset.to_objects", "src/pdfje/document.py:_doc_objects"]}
{"id": "C63", "title": "Text can be extracted from the written file", "statement": "For every document that is written completely, the text that a reader extracts from the bytes of the file for a page (content stream, current font, WinAnsiEncoding or ToUnicode map) is exactly the sequence of characters that the page shows, in drawing order (characters that a standard font lacks become '?'), whenever every string is shown in the font it was encoded for; this is so for all pages of text drawings without empty strings in which the style does not change on an empty line, where the extracted text is the concatenation of the given strings without newlines.", "quantifier": "all documents, pages, texts, typefaces", "why_tests_cant": "Extraction crosses every layer of the program (style, words, kerning, encoding, subsetting, serialization); it must hold for all texts and histories of font use.", "anchors": ["src/pdfje/draw.py:Text.render", "src/pdfje/typeset/words.py", "src/pdfje/fonts/embed.py:Subset.encode", "src/pdfje/fonts/embed.py:Subset._unicode_map", "src/pdfje/fonts/common.py:BuiltinFont.encode", "src/pdfje/document.py:Document.write"]}
{"id": "C64", "title": "Flowing text can be extracted from the written file", "statement": "For every document that is written completely, the text that a reader extracts from the bytes of the file for the pages of an automatic page sequence is, after the text of the drawings on each page, the text of its paragraphs in order: every line of the text is cut into consecutive pieces which appear whole, or without the space at their end, or with a hyphen; nothing is lost, repeated or out of order, whatever the columns, alignment, indent, kind of line breaking and page breaks. (For paragraphs in which the style changes only after newlines, in columns at least as high as any line: otherwise C27/C46 are the known exceptions.)", "quantifier": "all documents, sequences of paragraphs, texts, typefaces, page templates and columns, items before and after", "why_tests_cant": "The text crosses line breaking, hyphenation, columns, pages, font registration, encoding and serialization; every combination of text and column sizes has to preserve it.", "anchors": ["src/pdfje/layout/pages.py:AutoPage.render", "src/pdfje/layout/paragraph.py:Paragraph.into_columns", "src/pdfje/layout/common.py", "src/pdfje/typeset/firstfit.py", "src/pdfje/typeset/optimum.py", "src/pdfje/document.py:Document.write"]}
{"id": "C65", "title": "Every well-formed document is written", "statement": "Writing a document of at least one item always succeeds (no exception, no endless loop, a complete file) when: its pages hold any drawings except polylines that start with an XY (C55); its automatic pages hold rules and paragraphs with first-fit line breaks of any text, nested styles, alignment, indent and orphan control, in templates with any columns of non-negative height, however narrow or low; font sizes and line spacings are positive and hyphens do not have a negative width; no string is empty; and the strings are made of fewer than 65534 different characters.", "quantifier": "all documents of this kind, all page templates, typefaces, styles, texts and column sizes", "why_tests_cant": "Success depends on every combination of word widths, column sizes, orphan control and page templates; a loop that does not end or a failed assertion can hide in any of them.", "anchors": ["src/pdfje/document.py:Document.write", "src/pdfje/layout/pages.py:AutoPage.render", "src/pdfje/layout/paragraph.py:Paragraph.into_columns", "src/pdfje/typeset/firstfit.py", "src/pdfje/layout/rule.py:Rule.into_columns", "src/pdfje/fonts/embed.py:Subset.to_objects"]}
{"id": "C66", "title": "Declared widths of embedded fonts are the layout widths", "statement": "In every written document, the width that a reader of the file finds for each code of an embedded font is the width that the layout was computed with, so that glyphs appear exactly where the layout put them.", "quantifier": "all documents, pages, embedded fonts, strings", "why_tests_cant": "Depends on the units per em and the width of every glyph of any font, and on the history of codes.", "anchors": ["src/pdfje/fonts/embed.py:_encode_widths", "src/pdfje/fonts/embed.py:Subset.to_objects", "src/pdfje/fonts/embed.py:Subset.new"]}
{"id": "C67", "title": "Standard-font text is measured as it is displayed", "statement": "In the standard text fonts (Helvetica, Times, Courier, in all variants), the width with which layout measures a character is the width of the glyph that is shown for it (a question mark for characters that the encoding does not have). For the printable ASCII characters it is the width that Adobe publishes.", "quantifier": "all characters, standard text typefaces and variants", "why_tests_cant": "Ranges over all of Unicode times all fonts; a test looks at a few common letters.", "anchors": ["src/pdfje/fonts/builtins.py", "src/pdfje/fonts/common.py:BuiltinFont", "src/pdfje/fonts/registry.py"]}
{"id": "C68", "title": "Standard fonts always advance", "statement": "In every standard font, every character (also one that the font does not have) has a positive width; the next character always starts to the right of it, whatever the kerning between them; and text never gets narrower when a character is added to it.", "quantifier": "all standard typefaces and variants, all pairs of characters", "why_tests_cant": "Holds for all pairs of Unicode characters, not just for the pairs in a test text.", "anchors": ["src/pdfje/fonts/builtins.py", "src/pdfje/fonts/common.py:BuiltinFont", "src/pdfje/fonts/common.py:KerningTable"]}
{"id": "C69", "title": "Paragraph lines start at the indent", "statement": "The first line of a paragraph, and of each line of text in it that a newline starts, begins at the paragraph's indent from the left edge of where the line is placed, unless the text itself starts with a space; no later line is affected by the indent.", "quantifier": "all paragraphs (text, styles, indent, line breaking), all columns", "why_tests_cant": "The indent must survive every way in which the first word can be kerned, cut, hyphenated or moved to a following column; tests look at one column width.", "anchors": ["src/pdfje/layout/paragraph.py:Paragraph.into_columns", "src/pdfje/typeset/words.py:indent_first", "src/pdfje/typeset/firstfit.py:take_line", "src/pdfje/typeset/optimum.py"]}
{"id": "C70", "title": "Embedded fonts are kerned as their tables say", "statement": "Text in an embedded font is kerned as the font's GPOS table (feature kern, pair positioning) prescribes: for every two characters the font has, the adjustment between them is that of the pair of their glyphs, in thousandths of the font size; every well-formed font can be used.", "quantifier": "all fonts with a well-formed GPOS table, all pairs of characters", "why_tests_cant": "Pair and class subtables, coverage, class 0, value formats and glyphs shared by characters combine in ways no sample of fonts covers; tests use one font and a few pairs.", "anchors": ["src/pdfje/vendor/get_kerning_pairs.py:for_font", "src/pdfje/vendor/get_kerning_pairs.py:OTFKernReader", "src/pdfje/fonts/embed.py:Subset.new"]}
{"id": "C71", "title": "Orphan avoidance does what it says (optimal line breaks)", "statement": "With avoid_orphans=True and optimal line breaking, a paragraph that starts in a partly filled column and continues in the next one never leaves exactly one line in the first. The layout is that without avoid_orphans for columns of which the first may be left out (only if they have no room for two lines) and some are shortened by whole lines (and keep room for two). A last column gets a single line only if the column before it has at most two lines, or the last has room for only one, or shortening the one before it by one more line does not help.", "quantifier": "all paragraphs, alignments and parameters; all columns of which none is over-full (see C36 and C43 for these)", "why_tests_cant": "The layout is redone for other columns, in which all breaks may change, any number of times; tests check one outcome.", "anchors": ["src/pdfje/typeset/optimum.py:shape", "src/pdfje/typeset/optimum.py:ColumnQueue.shorten_column", "src/pdfje/typeset/optimum.py:ColumnQueue.remove_first_column"]}
{"id": "C72", "title": "ToUnicode maps keep to the limit of 100 entries per section", "statement": "In the ToUnicode map of every embedded font, a bfchar section has at most 100 entries, as the CMap specification requires, however many different characters are used.", "quantifier": "every sequence of uses of fonts with arbitrary strings", "why_tests_cant": "The limit matters only with more than 100 different characters in a font; tests use short texts, and viewers differ in how they treat longer sections.", "anchors": ["src/pdfje/fonts/embed.py:_unicode_map"]}
{"id": "C73", "title": "Documents with the default line breaking are written", "statement": "Document.write completes without an error for every document whose automatic pages have paragraphs (with optimal or first-fit line breaks) with room for every word and every line, and rules, in fonts with usual metrics. In particular Document(text).write does, for every text whose words have at most 36 characters.", "quantifier": "every list of pages of drawings and automatic pages, every paragraph content, style, alignment and indent, every page template, and every text", "why_tests_cant": "Optimal line breaking raises an IndexError or asserts in rare combinations of line widths, columns and orphans; no finite set of texts shows that it never does.", "anchors": ["src/pdfje/document.py:Document.write", "src/pdfje/layout/pages.py:AutoPage.render", "src/pdfje/layout/paragraph.py:Paragraph.into_columns", "src/pdfje/layout/rule.py:Rule.into_columns", "src/pdfje/typeset/optimum.py:shape"]}
{"id": "C74", "title": "A page paints exactly its shapes, each in its own colours", "statement": "On every page of a document, a viewer paints the shapes of the page's drawings (lines, rectangles, ellipses, circles, polylines), each complete and with its own fill and stroke colour, in the order in which they were given, then the rules in the page's columns, and nothing else. Colours of earlier shapes or text never affect later shapes, and no unfinished path is left.", "quantifier": "every document, every list of drawings in any order with any colours, and every content of the columns", "why_tests_cant": "Operators share one graphics state; that nothing leaks from one drawing to another has to hold for every sequence of drawings.", "anchors": ["src/pdfje/draw.py:_finish", "src/pdfje/draw.py:Line.render", "src/pdfje/draw.py:Polyline.render", "src/pdfje/layout/rule.py:ShapedRule.render", "src/pdfje/page.py:Page.render"]}
{"id": "C75", "title": "Operators occur only where PDF allows them", "statement": "In the content stream of every page of a written file, every operator is in a place where PDF 32000-1 (8.2, Figure 9) allows it: between the beginning of a path and its painting there are only path construction operators, text operators are between BT and ET, text objects are not nested, and the stream ends at the page level.", "quantifier": "every document that is written, and every page of it", "why_tests_cant": "Viewers are lenient, so looking at a page shows nothing; the order has to be right for every combination of drawings and blocks.", "anchors": ["src/pdfje/draw.py:_finish", "src/pdfje/layout/rule.py:ShapedRule.render", "src/pdfje/typeset/layout.py:render_text"]}
{"id": "C76", "title": "Text on a line is kerned as its font says", "statement": "On every displayed line of a paragraph, two neighbouring glyphs in the same font and size are exactly as far apart as the font says: by the advance width of the first plus the kerning of the pair (in justified text, spaces may be wider). This holds across fragments, words, hyphenation and line breaking. Between glyphs in different fonts or sizes there is no kerning (except before a hyphen that is added).", "quantifier": "every paragraph, style, world of fonts with any kerning, either line breaking algorithm, any columns, and any two neighbours on a line", "why_tests_cant": "Kerning is attached to strings at parse time and cut, moved and dropped by hyphenation, line breaking, indents and justification; whether the right offset survives depends on every break.", "anchors": ["src/pdfje/typeset/parse.py:_parse", "src/pdfje/typeset/words.py:Slug.new", "src/pdfje/typeset/words.py:TrailingSpace", "src/pdfje/typeset/words.py:Slug.hyphenate", "src/pdfje/typeset/optimum.py:_into_lines"]}
{"id": "C77", "title": "Continued lines start exactly at their left edge", "statement": "Every displayed line of a paragraph other than the first of a line of its text begins exactly at its left edge: the kerning with the character that ended the line before is not applied.", "quantifier": "every paragraph, style, world of fonts with any kerning, either line breaking algorithm, any columns, and every line but the first", "why_tests_cant": "It has to hold for whatever character ends up at the start of a line, for every way a line can end (dropped space, hyphen, word too wide for the column).", "anchors": ["src/pdfje/typeset/firstfit.py:take_line", "src/pdfje/typeset/words.py:Slug.without_init_kern", "src/pdfje/typeset/optimum.py:_into_lines"]}
{"id": "C78", "title": "Displayed lines stay within their column's width", "statement": "When a paragraph is flowed into columns, every line displayed in a column is, not counting a space at its end, no wider than that column, unless there is no place inside the line at which it could have been broken; and in justified paragraphs every line but the last that has a space to stretch reaches from edge to edge of its column.", "quantifier": "every paragraph content with any style changes, alignment, indentation and line-breaking method; every sequence of columns of differing widths and remaining heights; every font metrics and hyphenator; every line displayed", "why_tests_cant": "Whether a line fits is decided by accumulated widths with kerning, pruned trailing spaces, hyphens and look-ahead over columns of different widths; the line that is displayed is drawn by other code than that which measured it. Only a proof over all texts and columns links the two.", "anchors": ["src/pdfje/typeset/firstfit.py:take_line", "src/pdfje/typeset/knuth_plass.py:ratio_justified", "src/pdfje/typeset/optimum.py", "src/pdfje/typeset/layout.py:ShapedText", "src/pdfje/layout/paragraph.py:Paragraph"]}
{"id": "C79", "title": "The built-in hyphenator follows Liang's method", "statement": "A word of more than four characters that is not an exception is broken after its first k characters exactly if at least two characters precede and follow that place and the greatest of the numbers that patterns occurring in the word give for that place is odd; a word that is an exception is broken exactly where the exception has hyphens.", "quantifier": "every pattern list, every exception list, every word whose lower-casing keeps its length (the 4938 English patterns and 14 exceptions included)", "why_tests_cant": "The answer depends on all overlapping occurrences of all patterns in the word; tests try a few words with one table.", "anchors": ["src/pdfje/vendor/hyphenate.py:Hyphenator", "src/pdfje/vendor/hyphenate.py:hyphenate_word"]}
{"id": "C80", "title": "What is written begins with a PDF header", "statement": "Whatever the document is, whether or not writing it succeeds, and at whatever point it is interrupted after the first chunk, the bytes written begin with the line %PDF-1.7 followed by a comment line with at least four bytes of 128 or more.", "quantifier": "every document, every file ID, every number of chunks the target accepts", "why_tests_cant": "It includes all failing and interrupted writes.", "anchors": ["src/pdfje/atoms.py:_HEADER", "src/pdfje/atoms.py:write"]}
{"id": "C81", "title": "Units and paper sizes are what they are called", "statement": "Lengths given in inches, picas, centimetres and millimetres are converted to points exactly (metric ones to less than 1e-14 of the length), each named paper size is that of the real sheet to less than one point, and the default page is A4 with margins of one inch.", "quantifier": "all numbers; all named sizes", "why_tests_cant": "All lengths, not samples.", "anchors": ["src/pdfje/units.py", "src/pdfje/page.py:Page.__init__"]}
{"id": "C82", "title": "Points obey the laws of vectors", "statement": "Adding, subtracting, scaling, dividing and flipping points works component by component, so the laws of vectors hold; tuples can be used for points; a point is the sequence of its two components, and no other index is valid.", "quantifier": "all points, tuples, numbers and indices", "why_tests_cant": "Algebraic laws over all numbers.", "anchors": ["src/pdfje/common.py:XY"]}
{"id": "C83", "title": "Larger penalties do not lead to more of what they penalise", "statement": "If one of the penalties for line breaks (hyphens, consecutive hyphens, lines of very different tightness) is increased and nothing else is changed, then the optimal line breaks have at most as many of the penalised places as before, and no other tolerance is used.", "quantifier": "all box lists, line widths, tolerances and penalties", "why_tests_cant": "Compares the optima of two optimisation problems over exponentially many sequences, for every input.", "anchors": ["src/pdfje/layout/paragraph.py:LinebreakParams", "src/pdfje/typeset/knuth_plass.py:optimum_fit", "src/pdfje/typeset/optimum.py:find_breaks"]}
{"id": "C84", "title": "Adding to the end of a document leaves the earlier pages as they are", "statement": "If a document is written, and then items are added after its items, or blocks after the blocks of the automatic pages it ends in, then writing the longer document (even if that fails later) starts with exactly the same bytes: the header and the objects of all pages (all pages but the last, if blocks are added to it). The page that was the last keeps its template and everything that was in its columns, in its place.", "quantifier": "all documents, all items or blocks added, all templates whose pages have columns, all fonts and file ids, also when the longer document fails", "why_tests_cant": "there is no bound on the documents, on what is added and on the templates; layout could look ahead at later blocks, or fonts registered later could change names on earlier pages", "anchors": ["src/pdfje/document.py:_doc_objects", "src/pdfje/layout/pages.py:AutoPage.render", "src/pdfje/layout/common.py:fill_pages", "src/pdfje/resources.py:Resources"]}
{"id": "C85", "title": "Where a style is given does not matter", "statement": "A style that is given to a document has the same effect as giving it to each paragraph below the paragraph's own style: for a document without text drawings the file is the same, byte by byte. A style that is given to a text drawing has the same effect as one that is given to a span with all its content, and the same holds for a paragraph, if the font around it is in use already and its strings are not empty: its lines are laid out in the same way and the same instructions are written.", "quantifier": "all documents, blocks, drawings, styles, nestings of spans, columns and resources in use", "why_tests_cant": "Compares two ways to write any document; styles are merged at several places, in different ways (with defaults, as differences, delayed until there is text), and all of them have to agree for every style and nesting.", "anchors": ["src/pdfje/style.py:Style.__or__", "src/pdfje/style.py:Style.diff", "src/pdfje/style.py:Span.flatten", "src/pdfje/layout/paragraph.py:Paragraph.into_columns", "src/pdfje/draw.py:Text.render", "src/pdfje/document.py:Document"]}
{"id": "C86", "title": "Moving things moves what is displayed, and changes nothing else", "statement": "If a drawing or a column is placed somewhere else, what it shows is moved by the same distance and is the same otherwise: shapes keep their form and colours, glyphs their font, size and colour, and a paragraph is broken into the same lines, in the same columns. If everything in a document is moved, or the margins of its pages are moved, every page shows the same, moved; the number, sizes and order of pages and the fonts stay the same, and errors too.", "quantifier": "all drawings, styles, texts, fonts, templates, columns (each with its own distance), distances, documents", "why_tests_cant": "Compares two executions for every layout and every distance; each kind of drawing and block computes its own coordinates (relative or absolute) and any of them could leave out or double the offset.", "anchors": ["src/pdfje/draw.py", "src/pdfje/page.py:Column", "src/pdfje/page.py:_column", "src/pdfje/layout/common.py:ColumnFill", "src/pdfje/layout/rule.py:Rule.into_columns", "src/pdfje/typeset/layout.py:render_text", "src/pdfje/layout/pages.py:AutoPage.render"]}
{"id": "C87", "title": "Documents do not depend on the unit of length", "statement": "If every length given to pdfje (page sizes, margins, columns, indentation, margins of rules, font sizes, places and sizes of drawings) is multiplied by one positive number, the same document results, enlarged: there are as many pages, with the same glyphs and shapes, all of whose coordinates and sizes are multiplied by that number. So no absolute length is hidden in the layout: lines, columns and pages are broken at the same places, hyphenation, justification and orphan control decide the same, fonts are the same, and errors occur when they did.", "quantifier": "all documents (drawings, paragraphs of both line breaking algorithms and all parameters, rules, templates with columns), base styles, fonts, hyphenators, positive factors", "why_tests_cant": "Compares two executions for every document and every factor. One comparison or constant in any of the modules that is not relative to a size would break it only for particular inputs.", "anchors": ["src/pdfje/typeset/knuth_plass.py:optimum_fit", "src/pdfje/typeset/optimum.py:shape", "src/pdfje/typeset/firstfit.py:shape", "src/pdfje/typeset/words.py", "src/pdfje/typeset/layout.py", "src/pdfje/draw.py", "src/pdfje/layout/rule.py", "src/pdfje/page.py:Page", "src/pdfje/layout/pages.py:AutoPage.render"]}
{"id": "C88", "title": "Colours change nothing but colours", "statement": "If each colour in a document (of text, drawings and rules) is replaced by another one, different colours by different ones, each page shows the same glyphs and shapes as before, at the same places, in the new colours. What is displayed in one part of a page never takes its colour from another part, or from the colour in which a viewer starts.", "quantifier": "all documents, base styles and fonts; all injective replacements of colours", "why_tests_cant": "Compares two executions for every document and every replacement; colours are set by commands that are merged and left out when they change nothing, so that a wrong comparison or a missing command shows only for certain sequences of styles.", "anchors": ["src/pdfje/style.py:Style.diff", "src/pdfje/typeset/state.py:SetColor", "src/pdfje/typeset/state.py:squash", "src/pdfje/draw.py:_finish", "src/pdfje/layout/rule.py:ShapedRule.render", "src/pdfje/typeset/layout.py:render_text"]}
{"id": "C89", "title": "Font descriptors say what the font files say", "statement": "For every embedded font that a page of a written document refers to, a reader of the file finds a font descriptor whose bounding box, ascent, descent and height of capitals are those of the embedded font in thousandths of the font size, rounded to the nearest integer, and whose italic angle is that of the font; where a font does not state the height of its capitals that of its ascenders is given. The flags say exactly: symbolic, and fixed pitch, italic and bold if the font is. The font, its descendant and its descriptor have one name, that of a subset (six capital letters and a plus sign before the name). The font program that is found has the stated length.", "quantifier": "all documents, all embedded fonts and all tables such a font can have", "why_tests_cant": "The numbers come from tables of arbitrary fonts with arbitrary units, signs and missing entries; a test sees two fonts.", "anchors": ["src/pdfje/fonts/embed.py:Subset.to_objects", "src/pdfje/fonts/embed.py:_encode_bbox", "src/pdfje/fonts/embed.py:_encode_flags", "src/pdfje/fonts/embed.py:_encode_cap_height", "src/pdfje/fonts/embed.py:_encode_cid_gid_map"]}
{"id": "C90", "title": "Stem widths follow the stated map from weights", "statement": "The stem width in the descriptor of an embedded font is found from the weight of the font by the map the code states: weights from 100 to 900 are mapped to 50 to 241 in proportion, rounded to the nearest integer.", "quantifier": "all documents and embedded fonts with weights from 100 to 900", "why_tests_cant": "Ranges over all fonts; tests have fonts of two weights and compare only that a number is there.", "anchors": ["src/pdfje/fonts/embed.py:_encode_stem_v", "src/pdfje/fonts/embed.py:Subset.to_objects"]}
{"id": "C91", "title": "What comes before in a document does not change what later pages show", "statement": "The pages and flowing content that follow others in a document show the same as in a document of their own with the same page numbers: as many pages, of the same sizes and rotations, with the same glyphs at the same places, of the same sizes and colours and in the same fonts, and the same shapes. Fonts may only have other numbers (the resource names they are registered by). An error occurs in the one case exactly if it does in the other.", "quantifier": "all documents, all splittings of their content in two parts, all styles, fonts and page templates", "why_tests_cant": "Ranges over all histories of font and character registration that come before; tests render documents of a few pages and never compare a page with itself in another document.", "anchors": ["src/pdfje/document.py:Document.write", "src/pdfje/resources.py:Resources.font", "src/pdfje/layout/pages.py:AutoPage.render", "src/pdfje/page.py:Page.render"]}
{"id": "C92", "title": "First-fit uses as few lines as possible", "statement": "When no word is hyphenated, a paragraph set by first-fit in columns of one width takes no more lines than any other way to divide its words into lines that fit the width; if every word fits on a line, that minimum is attained by lines that fit, and so the same words never take more lines in wider columns.", "quantifier": "all paragraphs of unhyphenated words with non-negative widths, all column widths and heights, all divisions into lines, with and without orphan avoidance", "why_tests_cant": "Ranges over all texts and all alternative divisions into lines, which are exponentially many.", "anchors": ["src/pdfje/typeset/firstfit.py:shape, take_box, take_line", "src/pdfje/typeset/words.py:Word.hyphenate, Word.pruned_width, Word.without_init_kern"]}
{"id": "C93", "title": "Pages and documents can be used more than once", "statement": "Writing a document again gives the same pages as the first time, and Page.add leaves the page it is called on as it is.", "quantifier": "all documents of pages and automatic pages whose contents are given as any iterable, all histories of earlier writes and additions", "why_tests_cant": "Ranges over all documents, all kinds of iterables in each place, and all sequences of earlier uses.", "anchors": ["src/pdfje/document.py:Document.__init__, Document.write", "src/pdfje/page.py:Page.__init__, Page.add, Page.render, Page.fill", "src/pdfje/layout/pages.py:AutoPage.__init__, AutoPage.render"]}
{"id": "C94", "title": "Text added at the end of a first-fit paragraph changes only its last line", "statement": "If text is added at the end of a paragraph that is set by first-fit, after a place where a line may end, then all of its lines but the last stay as they are: the same words, the same justification; without orphan avoidance also in the same places, with all earlier columns unchanged; with it, the lines are the same in columns of one width.", "quantifier": "all texts with newlines, hyphenation and any added text, all fonts, alignments and indents, all sequences of columns and what is in them already", "why_tests_cant": "Ranges over all texts, all additions to them and all columns.", "anchors": ["src/pdfje/typeset/firstfit.py:shape, take_box, take_line", "src/pdfje/typeset/parse.py:into_words", "src/pdfje/typeset/state.py:splitlines", "src/pdfje/layout/paragraph.py:Paragraph.into_columns"]}
{"id": "C95", "title": "Drawings do not change how text flows", "statement": "A document that is written without an error, stripped of the drawings on its pages and in its templates, is also written without an error and has as many pages of the same sizes; each page of the original shows its drawings first and then exactly what the stripped page shows: the same glyphs at the same places, of the same sizes and colours, in the same fonts, and the same rules.", "quantifier": "all documents of pages and auto-pages with any drawings, templates, styles, fonts and flowing content, and all numbers of earlier pages", "why_tests_cant": "Ranges over all documents and all drawings; drawings register fonts and characters and so change the shared font resources the text is set with.", "anchors": ["src/pdfje/layout/pages.py:AutoPage.render", "src/pdfje/layout/common.py:fill_pages", "src/pdfje/page.py:Page.fill", "src/pdfje/document.py:Document.write", "src/pdfje/resources.py:Resources"]}
{"id": "C96", "title": "A newline in a paragraph starts a new paragraph of the same kind", "statement": "A paragraph made from lines joined by newlines and the sequence of paragraphs made from the lines one by one, with the same style, alignment, indentation and line breaking, are the same thing: if either document is written without an error, so is the other, and the two files are equal byte by byte. In particular Document('\\n'.join(lines)) equals Document([AutoPage(lines)]).", "quantifier": "all lists of lines, all settings of the paragraph, all content before and after it in the document, all templates with columns, all fonts", "why_tests_cant": "Ranges over all texts, layouts and surrounding documents; in one case all lines are laid out before any page is written, in the other pages are written in between.", "anchors": ["src/pdfje/layout/paragraph.py:Paragraph.into_columns", "src/pdfje/typeset/state.py:splitlines", "src/pdfje/layout/common.py:fill_pages", "src/pdfje/layout/pages.py:AutoPage.render", "src/pdfje/document.py:Document.__init__"]}
{"id": "C97", "title": "Paper size and rotation change nothing but themselves", "statement": "If the pages and templates of a document get another size or rotation while their drawings and columns stay as they are, the file has the same objects with the same numbers, and they are equal except for the entries MediaBox and Rotate of the page objects; in particular text flows to the same pages and every content stream is the same byte by byte, and the document is written completely if and only if it was before.", "quantifier": "all documents, all choices of size and rotation for each page, all fonts and compressions, including documents that fail while being written", "why_tests_cant": "Ranges over all documents and all sizes and rotations, chosen separately for every page of a template.", "anchors": ["src/pdfje/page.py:Page", "src/pdfje/page.py:RenderedPage.to_atoms", "src/pdfje/layout/pages.py:AutoPage.render", "src/pdfje/document.py:_doc_objects"]}
{"id": "C98", "title": "The way a text is cut into strings does not matter", "statement": "If strings in paragraphs or text drawings, or in spans in them, however nested, are replaced by several strings that together give the same text, each but the last ending where a line may end (a space not followed by another, a hyphen, an em dash or a zero-width space) and none empty, and no font kerns the two characters at a cut, or each but the last ending with a newline, then the written file is the same byte by byte; if one version raises an error, so does the other, after the same output.", "quantifier": "all documents, paragraphs, spans and positions of the cuts, all fonts and all hyphenators that cut words into pieces", "why_tests_cant": "Ranges over all texts, all nestings of spans and all places to cut, with both line breaking algorithms.", "anchors": ["src/pdfje/typeset/parse.py:into_words", "src/pdfje/typeset/state.py:splitlines", "src/pdfje/style.py:StyledMixin.flatten", "src/pdfje/layout/paragraph.py:Paragraph.into_columns", "src/pdfje/draw.py:Text.render"]}
{"id": "C99", "title": "Spans that set nothing change nothing", "statement": "If spans in paragraphs or text drawings, however nested, whose style sets nothing but what is in force around them already (for instance spans without a style) are replaced by their content, the written file is the same byte by byte; if one version raises an error, so does the other, after the same output.", "quantifier": "all documents, styles, nestings of spans, fonts and hyphenators", "why_tests_cant": "Ranges over all nestings of spans and all styles around them; style changes are delayed until there is text, and must cancel out in every combination.", "anchors": ["src/pdfje/style.py:StyledMixin.flatten", "src/pdfje/style.py:Style.diff", "src/pdfje/style.py:StyleFull.diff", "src/pdfje/layout/paragraph.py:Paragraph.into_columns", "src/pdfje/draw.py:Text.render"]}
{"id": "C100", "title": "Where lines are placed does not change them", "statement": "If paragraphs are set in columns of one width, their lines are the same wherever columns and pages end: the same words on each line, with the same hyphens and the same spaces, whatever the heights, places and number of the columns, the sizes, rotations and drawings of the pages, the number of the first page, and whether orphans are avoided. Column breaks and orphan avoidance move whole lines, they never change one. (With optimal line breaks the columns must be at least a line high.)", "quantifier": "all paragraphs with text (any spans, styles, alignment, indentation and newlines, both line breaking algorithms), one on any pages or several on pages whose templates draw no text; all pairs of templates whose columns have one width, all page numbers and font registries", "why_tests_cant": "Ranges over all texts and all pairs of sequences of columns; a line could change only where a break of some text meets the end of some column.", "anchors": ["src/pdfje/typeset/firstfit.py:shape", "src/pdfje/typeset/optimum.py:shape", "src/pdfje/layout/paragraph.py:Paragraph.into_columns", "src/pdfje/layout/pages.py:AutoPage.render"]}
