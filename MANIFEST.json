{
 "claims": [
  {
   "property": "C01",
   "status": "proved",
   "theorems": [
    "Pdfje.C01_xref",
    "Pdfje.C01_too_few"
   ],
   "note": ""
  },
  {
   "property": "C02",
   "status": "proved",
   "theorems": [
    "Pdfje.C02_references",
    "Pdfje.C02_document"
   ],
   "note": ""
  },
  {
   "property": "C03",
   "status": "proved",
   "theorems": [
    "Pdfje.C03_page_tree",
    "Pdfje.C03_file"
   ],
   "note": ""
  },
  {
   "property": "C04",
   "status": "proved",
   "theorems": [
    "Pdfje.C04_stream_framing"
   ],
   "note": ""
  },
  {
   "property": "C05",
   "status": "proved",
   "theorems": [
    "Pdfje.C05_no_pages",
    "Pdfje.C05_never_complete",
    "Pdfje.C05_default",
    "Pdfje.C05_block"
   ],
   "note": ""
  },
  {
   "property": "C06",
   "status": "proved",
   "theorems": [
    "Pdfje.C06_literal_string"
   ],
   "note": ""
  },
  {
   "property": "C07",
   "status": "proved",
   "theorems": [
    "Pdfje.C07_hex_string"
   ],
   "note": ""
  },
  {
   "property": "C08",
   "status": "proved",
   "theorems": [
    "Pdfje.C08_object",
    "Pdfje.C08_file",
    "Pdfje.C08_denotes_int_inj"
   ],
   "note": ""
  },
  {
   "property": "C09",
   "status": "partial",
   "theorems": [
    "Pdfje.C09_counterexample",
    "Pdfje.C09_sanitized_name_partial"
   ],
   "note": "False as stated: sanitize_name keeps PDF delimiters such as ( and /, see C09_counterexample; proved for names without delimiters."
  },
  {
   "property": "C10",
   "status": "partial",
   "theorems": [
    "Pdfje.C10_valid_iff",
    "Pdfje.C10_counterexample",
    "Pdfje.C10_number_partial"
   ],
   "note": "False as stated: %g switches to exponent notation from 999999.5 up and below 0.0001; C10_valid_iff gives the exact range, C10_counterexample a witness."
  },
  {
   "property": "C11",
   "status": "proved",
   "theorems": [
    "Pdfje.C11_interrupted",
    "Pdfje.C11_document"
   ],
   "note": ""
  },
  {
   "property": "C12",
   "status": "proved",
   "theorems": [
    "Pdfje.C12_only_id",
    "Pdfje.C12_document"
   ],
   "note": ""
  },
  {
   "property": "C13",
   "status": "proved",
   "theorems": [
    "Pdfje.C13_builtin_encode"
   ],
   "note": ""
  },
  {
   "property": "C14",
   "status": "proved",
   "theorems": [
    "Pdfje.C14_embedded_codes"
   ],
   "note": ""
  },
  {
   "property": "C15",
   "status": "proved",
   "theorems": [
    "Pdfje.C15_glyphs",
    "Pdfje.C15_embedded_tables",
    "Pdfje.C15_file"
   ],
   "note": ""
  },
  {
   "property": "C16",
   "status": "proved",
   "theorems": [
    "Pdfje.C16_utf16"
   ],
   "note": ""
  },
  {
   "property": "C17",
   "status": "proved",
   "theorems": [
    "Pdfje.C17_registry",
    "Pdfje.C17_names_differ",
    "Pdfje.C17_variant"
   ],
   "note": ""
  },
  {
   "property": "C18",
   "status": "partial",
   "theorems": [
    "Pdfje.C18_counterexample",
    "Pdfje.C18_no_duplicates_partial"
   ],
   "note": "False as stated: Symbol/ZapfDingbats in two weights are listed twice under one key; proved otherwise."
  },
  {
   "property": "C19",
   "status": "proved",
   "theorems": [
    "Pdfje.C19_kern",
    "Pdfje.C19_metrics"
   ],
   "note": ""
  },
  {
   "property": "C20",
   "status": "proved",
   "theorems": [
    "Pdfje.C20_array",
    "Pdfje.C20_kerned"
   ],
   "note": ""
  },
  {
   "property": "C21",
   "status": "partial",
   "theorems": [
    "Pdfje.C21_counterexample",
    "Pdfje.C21_word_partial",
    "Pdfje.C21_line_partial"
   ],
   "note": "False as stated: an empty text between two style changes makes parse.py merge merged commands, so the viewer uses another size than was measured (C21_counterexample); proved for all words built by any sequence of word operations from tidy passages."
  },
  {
   "property": "C22",
   "status": "proved",
   "theorems": [
    "Pdfje.C22_default",
    "Pdfje.C22_or",
    "Pdfje.C22_full"
   ],
   "note": ""
  },
  {
   "property": "C23",
   "status": "partial",
   "theorems": [
    "Pdfje.C23_counterexample",
    "Pdfje.C23_counterexample_hex",
    "Pdfje.C23_operands_partial"
   ],
   "note": "False as stated: str | RGB ignores the string even if malformed, and int(_, 16) accepts signs and spaces (\"#+f0000\"); proved otherwise."
  },
  {
   "property": "C24",
   "status": "proved",
   "theorems": [
    "Pdfje.C24_spans",
    "Pdfje.C24_unchanged"
   ],
   "note": ""
  },
  {
   "property": "C25",
   "status": "partial",
   "theorems": [
    "Pdfje.C25_counterexample",
    "Pdfje.C25_squash_partial"
   ],
   "note": "False as stated for sequences that contain merged commands (chains): only the last chain survives; proved for unmerged commands and for a single command."
  },
  {
   "property": "C26",
   "status": "proved",
   "theorems": [
    "Pdfje.C26_newlines"
   ],
   "note": ""
  },
  {
   "property": "C27",
   "status": "partial",
   "theorems": [
    "Pdfje.C27_counterexample",
    "Pdfje.C27_counterexample_style",
    "Pdfje.C27_text_partial",
    "Pdfje.C27_tidy"
   ],
   "note": "False as stated: an empty passage after a break ends the paragraph and its text is lost (C27_counterexample), and styles can be lost (C27_counterexample_style); proved for tidy passages, which lines of non-empty passages always are (C27_tidy)."
  },
  {
   "property": "C28",
   "status": "proved",
   "theorems": [
    "Pdfje.C28_breaks"
   ],
   "note": ""
  },
  {
   "property": "C29",
   "status": "proved",
   "theorems": [
    "Pdfje.C29_syllables",
    "Pdfje.C29_never",
    "Pdfje.C29_pyphen"
   ],
   "note": ""
  },
  {
   "property": "C30",
   "status": "proved",
   "theorems": [
    "Pdfje.C30_new",
    "Pdfje.C30_builtin",
    "Pdfje.C30_english"
   ],
   "note": ""
  },
  {
   "property": "C31",
   "status": "proved",
   "theorems": [
    "Pdfje.C31_hyphenate",
    "Pdfje.C31_minimalBox"
   ],
   "note": ""
  },
  {
   "property": "C32",
   "status": "proved",
   "theorems": [
    "Pdfje.C32_text",
    "Pdfje.C32_paragraph",
    "Pdfje.C32_shown"
   ],
   "note": ""
  },
  {
   "property": "C33",
   "status": "proved",
   "theorems": [
    "Pdfje.C33_fits",
    "Pdfje.C33_last"
   ],
   "note": ""
  },
  {
   "property": "C34",
   "status": "proved",
   "theorems": [
    "Pdfje.C34_greedy"
   ],
   "note": ""
  },
  {
   "property": "C35",
   "status": "partial",
   "theorems": [
    "Pdfje.C35_counterexample",
    "Pdfje.C35_terminates_partial",
    "Pdfje.C35_paragraph_partial"
   ],
   "note": "False as stated for columns of negative height (margins larger than the page): the layout never ends (C35_counterexample); proved for all other columns, for both orphan settings, and for paragraphs of any text set by first-fit (C35_paragraph_partial)."
  },
  {
   "property": "C36",
   "status": "partial",
   "theorems": [
    "Pdfje.C36_pages_partial",
    "Pdfje.C36_pages_firstfit",
    "Pdfje.C36_firstfit",
    "Pdfje.C36_counterexample",
    "Pdfje.C36_optimum_partial"
   ],
   "note": "First-fit: proved. Optimal line breaks: false as stated if the first column is over-full already (a column lower than a line was given one): two more lines are put in it (C36_counterexample); proved for columns whose free height is not negative."
  },
  {
   "property": "C37",
   "status": "proved",
   "theorems": [
    "Pdfje.C37_shown",
    "Pdfje.C37_justified"
   ],
   "note": ""
  },
  {
   "property": "C38",
   "status": "proved",
   "theorems": [
    "Pdfje.C38_partition",
    "Pdfje.C38_empty"
   ],
   "note": ""
  },
  {
   "property": "C39",
   "status": "proved",
   "theorems": [
    "Pdfje.C39_tolerance"
   ],
   "note": ""
  },
  {
   "property": "C40",
   "status": "partial",
   "theorems": [
    "Pdfje.C40_counterexample",
    "Pdfje.C40_optimal_partial",
    "Pdfje.C40_unbroken_partial",
    "Pdfje.C40_paragraph_partial"
   ],
   "note": "False as stated for boxes where a hyphen is wider than the syllable after it (C40_counterexample): the line is given up at the hyphen; proved for all boxes for which too long lines stay too long, and for all boxes against breaks that do not run over such positions."
  },
  {
   "property": "C41",
   "status": "partial",
   "theorems": [
    "Pdfje.C41_counterexample",
    "Pdfje.C41_feasible_partial",
    "Pdfje.C41_unbroken_partial",
    "Pdfje.C41_paragraph_partial"
   ],
   "note": "False as stated, like C40 (C41_counterexample: a word that fits is refused because it does not fit with the hyphen); proved for all boxes for which too long lines stay too long, and for all boxes one-sidedly."
  },
  {
   "property": "C42",
   "status": "partial",
   "theorems": [
    "Pdfje.C42_counterexample",
    "Pdfje.C42_justified_partial",
    "Pdfje.C42_ragged_partial"
   ],
   "note": "False as stated: a syllable wider than the column gives an error in left-aligned text (C42_counterexample); proved for justified text with non-negative widths, and for other text if every syllable with its hyphen fits in every column."
  },
  {
   "property": "C43",
   "status": "partial",
   "theorems": [
    "Pdfje.C43_counterexample",
    "Pdfje.C43_text_partial",
    "Pdfje.C43_paragraph_partial",
    "Pdfje.C43_shown_partial"
   ],
   "note": "False as stated if the first column is over-full already: the last line is lost (C43_counterexample); proved for columns whose free height is not negative."
  },
  {
   "property": "C44",
   "status": "partial",
   "theorems": [
    "Pdfje.C44_shown_partial",
    "Pdfje.C44_fill_partial",
    "Pdfje.C44_counterexample"
   ],
   "note": "False as stated: lines whose spaces would have to be exactly twice as wide are not stretched (C44_counterexample); proved otherwise."
  },
  {
   "property": "C45",
   "status": "partial",
   "theorems": [
    "Pdfje.C45_counterexample",
    "Pdfje.C45_columns_partial",
    "Pdfje.C45_default_partial",
    "Pdfje.C45_fits_partial",
    "Pdfje.C45_best_partial"
   ],
   "note": "False as stated if the first column is over-full already (C45_counterexample); proved for columns whose free height is not negative."
  },
  {
   "property": "C46",
   "status": "partial",
   "theorems": [
    "Pdfje.C46_paragraph_left_partial",
    "Pdfje.C46_paragraph_baselines",
    "Pdfje.C46_paragraph_firstfit_partial",
    "Pdfje.C46_paragraph_counterexample",
    "Pdfje.C46_text_partial",
    "Pdfje.C46_counterexample",
    "Pdfje.C46_accepted",
    "Pdfje.C46_baselines"
   ],
   "note": "False as stated: a line after an empty line with a change of style is measured in one style and shown in another (C46_counterexample), and optimal line breaking gives right-aligned and centred lines a wrong width (C46_paragraph_counterexample). Count, baselines, leading and left edges are proved for all text drawings and paragraphs (C46_baselines, C46_paragraph_baselines, C46_paragraph_left_partial); centre and right edges for text drawings without such lines and without empty strings, and for first-fit paragraphs."
  },
  {
   "property": "C47",
   "status": "partial",
   "theorems": [
    "Pdfje.C47_text_partial",
    "Pdfje.C47_counterexample",
    "Pdfje.C47_string_partial"
   ],
   "note": "False as stated: text in a style of its own that starts with a newline is encoded for the wrong font (C47_counterexample); proved for text without empty strings in which no empty line has a change of style."
  },
  {
   "property": "C48",
   "status": "partial",
   "theorems": [
    "Pdfje.C48_mixed_partial",
    "Pdfje.C48_counterexample_blank",
    "Pdfje.C48_newlines_partial",
    "Pdfje.C48_firstfit_partial",
    "Pdfje.C48_string_partial",
    "Pdfje.C48_counterexample"
   ],
   "note": "False as stated: where the style changes at the end of the first word of a chunk, that word is shown in the style after it (C48_counterexample); and where optimal line breaking leaves a line blank, a change of style after it is lost (C48_counterexample_blank). Proved for paragraphs in which the style changes at newlines only, first-fit or optimal (C48_newlines_partial), and for first-fit with any styles for all chunks that do not start with such a word (C48_firstfit_partial; C48_mixed_partial for either algorithm if no line is blank). Empty strings, font size 0, and optimal line breaks in over-full columns are excluded."
  },
  {
   "property": "C49",
   "status": "proved",
   "theorems": [
    "Pdfje.C49_pages",
    "Pdfje.C49_before",
    "Pdfje.C49_kept",
    "Pdfje.C49_paragraph_adds",
    "Pdfje.C49_rule_adds",
    "Pdfje.C49_paragraph_lines",
    "Pdfje.C49_boxes"
   ],
   "note": ""
  },
  {
   "property": "C50",
   "status": "partial",
   "theorems": [
    "Pdfje.C50_counterexample",
    "Pdfje.C50_repeated",
    "Pdfje.C50_rule_partial"
   ],
   "note": "False as stated: a rule that does not fit repeats the whole column and is drawn below its edge (C50_counterexample, C50_repeated); proved for rules that fit in the current column."
  },
  {
   "property": "C51",
   "status": "proved",
   "theorems": [
    "Pdfje.C51_page_numbers",
    "Pdfje.C51_template"
   ],
   "note": ""
  },
  {
   "property": "C52",
   "status": "proved",
   "theorems": [
    "Pdfje.C52_drawn",
    "Pdfje.C52_stacked"
   ],
   "note": ""
  },
  {
   "property": "C53",
   "status": "proved",
   "theorems": [
    "Pdfje.C53_default_column",
    "Pdfje.C53_explicit_columns",
    "Pdfje.C53_columns"
   ],
   "note": ""
  },
  {
   "property": "C54",
   "status": "partial",
   "theorems": [
    "Pdfje.C54_counterexample",
    "Pdfje.C54_colours_partial",
    "Pdfje.C54_distinct_partial"
   ],
   "note": "False as stated: negative components are accepted (RGB(-1,0,0), \"#-f0000\"); upper bound, hex values and injectivity proved."
  },
  {
   "property": "C55",
   "status": "partial",
   "theorems": [
    "Pdfje.C55_counterexample",
    "Pdfje.C55_polyline_partial",
    "Pdfje.C55_line"
   ],
   "note": "False as stated: a polyline whose first point is an XY raises a TypeError (C55_counterexample); proved for all other point lists."
  },
  {
   "property": "C56",
   "status": "proved",
   "theorems": [
    "Pdfje.C56_ellipse",
    "Pdfje.C56_circle",
    "Pdfje.C56_round"
   ],
   "note": ""
  },
  {
   "property": "C57",
   "status": "proved",
   "theorems": [
    "Pdfje.C57_leading"
   ],
   "note": ""
  },
  {
   "property": "C58",
   "status": "proved",
   "theorems": [
    "Pdfje.C58_indent"
   ],
   "note": ""
  },
  {
   "property": "C59",
   "status": "proved",
   "theorems": [
    "Pdfje.C59_paragraph",
    "Pdfje.C59_first",
    "Pdfje.C59_last"
   ],
   "note": ""
  },
  {
   "property": "C60",
   "status": "proved",
   "theorems": [
    "Pdfje.C60_order",
    "Pdfje.C60_page",
    "Pdfje.C60_add"
   ],
   "note": ""
  },
  {
   "property": "C61",
   "status": "proved",
   "theorems": [
    "Pdfje.C61_operators"
   ],
   "note": ""
  },
  {
   "property": "C62",
   "status": "proved",
   "theorems": [
    "Pdfje.C62_fonts"
   ],
   "note": ""
  },
  {
   "property": "C63",
   "status": "proved",
   "theorems": [
    "Pdfje.C63_extract",
    "Pdfje.C63_drawings"
   ],
   "note": ""
  },
  {
   "property": "C64",
   "status": "proved",
   "theorems": [
    "Pdfje.C64_flow",
    "Pdfje.C64_letters",
    "Pdfje.C64_block",
    "Pdfje.C64_text"
   ],
   "note": ""
  },
  {
   "property": "C65",
   "status": "proved",
   "theorems": [
    "Pdfje.C65_standard",
    "Pdfje.C65_written"
   ],
   "note": ""
  },
  {
   "property": "C66",
   "status": "partial",
   "theorems": [
    "Pdfje.C66_file_partial",
    "Pdfje.C66_truetype_partial",
    "Pdfje.C66_positions_partial",
    "Pdfje.C66_counterexample"
   ],
   "note": "False as stated: widths are cut off to whole thousandths (C66_counterexample); proved from the bytes of the file: less than one thousandth off, exact for whole numbers (C66_file_partial), and how far glyphs are off (C66_positions_partial)."
  },
  {
   "property": "C67",
   "status": "partial",
   "theorems": [
    "Pdfje.C67_counterexample",
    "Pdfje.C67_widths_partial",
    "Pdfje.C67_published"
   ],
   "note": "False as stated (C67_counterexample: the no-break space is measured as a question mark); proved for all characters except an explicit list of 27 (C67_widths_partial)."
  },
  {
   "property": "C68",
   "status": "proved",
   "theorems": [
    "Pdfje.C68_advance"
   ],
   "note": ""
  },
  {
   "property": "C69",
   "status": "partial",
   "theorems": [
    "Pdfje.C69_firstfit_partial",
    "Pdfje.C69_optimal_partial",
    "Pdfje.C69_counterexample"
   ],
   "note": "False as stated: where the first word does not fit with the indent, first-fit hyphenates or sets it without the indent (C69_counterexample). Proved for first-fit with exactly this exception, and without exception for optimal line breaks in columns that are not over-full; for paragraphs in which the style changes at newlines only."
  },
  {
   "property": "C70",
   "status": "partial",
   "theorems": [
    "Pdfje.C70_kerning_partial",
    "Pdfje.C70_counterexample",
    "Pdfje.C70_counterexample_class",
    "Pdfje.C70_counterexample_rtl"
   ],
   "note": "False as stated: of characters that share a glyph only the last is kerned (C70_counterexample), kerning of classes with glyphs in no class is ignored (C70_counterexample_class), and value formats other than 4 give an error (C70_counterexample_rtl). Proved for fonts whose subtables do not interact otherwise than pairs before classes, for characters with their own glyph (C70_kerning_partial)."
  },
  {
   "property": "C71",
   "status": "proved",
   "theorems": [
    "Pdfje.C71_paragraph",
    "Pdfje.C71_orphans",
    "Pdfje.C71_first"
   ],
   "note": ""
  },
  {
   "property": "C72",
   "status": "partial",
   "theorems": [
    "Pdfje.C72_section_partial",
    "Pdfje.C72_counterexample"
   ],
   "note": "False as stated: with more than 100 different characters in an embedded font, its single bfchar section is longer than allowed (C72_counterexample). Proved for fonts used for at most 100 different characters, with the exact number of entries."
  },
  {
   "property": "C73",
   "status": "partial",
   "theorems": [
    "Pdfje.C73_written_partial",
    "Pdfje.C73_counterexample",
    "Pdfje.C73_text"
   ],
   "note": "False as stated: a rule that does not fit over-fills its column, and then a paragraph of one line raises an error (C73_counterexample). Proved for documents without rules that take height (C73_written_partial), and for documents made from a string (C73_text)."
  },
  {
   "property": "C74",
   "status": "proved",
   "theorems": [
    "Pdfje.C74_painted"
   ],
   "note": ""
  },
  {
   "property": "C75",
   "status": "partial",
   "theorems": [
    "Pdfje.C75_lenient_partial",
    "Pdfje.C75_text_partial",
    "Pdfje.C75_counterexample"
   ],
   "note": "False as stated: colours are set between the construction and the painting of a path, where PDF allows no such operator (C75_counterexample). Proved from the bytes of the file: all other operators are where they are allowed (C75_lenient_partial), and on pages of text all are (C75_text_partial)."
  },
  {
   "property": "C76",
   "status": "partial",
   "theorems": [
    "Pdfje.C76_mixed_partial",
    "Pdfje.C76_words_partial",
    "Pdfje.C76_newlines_partial",
    "Pdfje.C76_string_partial",
    "Pdfje.C76_counterexample"
   ],
   "note": "False as stated: the text after the last break of a passage and the first word of a passage are not kerned with the character before (C76_counterexample). Proved: neighbours are spaced as the font says, or the first is a break character and they are not kerned at all: first-fit with any styles (C76_words_partial), either algorithm if styles change at newlines only (C76_newlines_partial); for a single string the exception is only after the last break (C76_string_partial). C76_mixed_partial: either algorithm and any styles, for paragraphs without blank lines whose chunks start quietly."
  },
  {
   "property": "C77",
   "status": "partial",
   "theorems": [
    "Pdfje.C77_mixed_partial",
    "Pdfje.C77_firstfit_partial",
    "Pdfje.C77_newlines_partial",
    "Pdfje.C77_counterexample"
   ],
   "note": "False as stated: optimal line breaking keeps the kerning with the dropped space at the start of a line, first-fit after a word too wide for the column (C77_counterexample). Proved: every line but the first starts at its left edge or is moved by the kerning with the end of the line before (C77_firstfit_partial, C77_newlines_partial, C77_mixed_partial)."
  },
  {
   "property": "C78",
   "status": "partial",
   "theorems": [
    "Pdfje.C78_firstfit_partial",
    "Pdfje.C78_optimal_partial",
    "Pdfje.C78_counterexample"
   ],
   "note": "False as stated: justified text with optimal line breaks and no stretchable space in a line overflows although it could be broken (C78_counterexample). Proved: first-fit, any styles, exceptions only lines of a single syllable (C78_firstfit_partial); optimal, exceptions only justified lines without a stretchable space (C78_optimal_partial); justified first-fit lines fill the column (C37_shown)."
  },
  {
   "property": "C79",
   "status": "proved",
   "theorems": [
    "Pdfje.C79_patterns",
    "Pdfje.C79_exceptions",
    "Pdfje.C79_english"
   ],
   "note": ""
  },
  {
   "property": "C80",
   "status": "proved",
   "theorems": [
    "Pdfje.C80_header"
   ],
   "note": ""
  },
  {
   "property": "C81",
   "status": "partial",
   "theorems": [
    "Pdfje.C81_counterexample",
    "Pdfje.C81_units_partial",
    "Pdfje.C81_default"
   ],
   "note": "False as stated for A0 and A1, which are up to four points too small (C81_counterexample); proved for all other sizes, all units and the default page."
  },
  {
   "property": "C82",
   "status": "proved",
   "theorems": [
    "Pdfje.C82_points"
   ],
   "note": ""
  },
  {
   "property": "C83",
   "status": "partial",
   "theorems": [
    "Pdfje.C83_counterexample",
    "Pdfje.C83_consecutive_partial",
    "Pdfje.C83_fitness_partial",
    "Pdfje.C83_hyphens_partial",
    "Pdfje.C83_noHyphens_partial",
    "Pdfje.C83_fails_partial",
    "Pdfje.C83_tolerances_partial"
   ],
   "note": "False as stated for the penalty for hyphens, which is added before squaring (C83_counterexample); proved for the penalties for consecutive hyphens and for differing fitness, for paragraphs with and without hyphens, and for when typesetting fails."
  },
  {
   "property": "C84",
   "status": "proved",
   "theorems": [
    "Pdfje.C84_items",
    "Pdfje.C84_blocks"
   ],
   "note": ""
  },
  {
   "property": "C85",
   "status": "proved",
   "theorems": [
    "Pdfje.C85_paragraph",
    "Pdfje.C85_span",
    "Pdfje.C85_text",
    "Pdfje.C85_document"
   ],
   "note": ""
  },
  {
   "property": "C86",
   "status": "proved",
   "theorems": [
    "Pdfje.C86_drawing",
    "Pdfje.C86_paragraph",
    "Pdfje.C86_column",
    "Pdfje.C86_document",
    "Pdfje.C86_margins"
   ],
   "note": ""
  },
  {
   "property": "C87",
   "status": "proved",
   "theorems": [
    "Pdfje.C87_document",
    "Pdfje.C87_drawing",
    "Pdfje.C87_margins"
   ],
   "note": ""
  },
  {
   "property": "C88",
   "status": "proved",
   "theorems": [
    "Pdfje.C88_document",
    "Pdfje.C88_only",
    "Pdfje.C88_drawing"
   ],
   "note": ""
  },
  {
   "property": "C89",
   "status": "proved",
   "theorems": [
    "Pdfje.C89_descriptor"
   ],
   "note": ""
  },
  {
   "property": "C90",
   "status": "partial",
   "theorems": [
    "Pdfje.C90_stem_partial",
    "Pdfje.C90_counterexample"
   ],
   "note": "False as stated: weights are not counted from 100 on, so that every stem width is 23.875 too large before rounding (C90_counterexample). Proved: the exact map, for all documents and fonts (C90_stem_partial)."
  },
  {
   "property": "C91",
   "status": "proved",
   "theorems": [
    "Pdfje.C91_isolated",
    "Pdfje.C91_after"
   ],
   "note": ""
  },
  {
   "property": "C92",
   "status": "proved",
   "theorems": [
    "Pdfje.C92_fewest",
    "Pdfje.C92_attained",
    "Pdfje.C92_wider"
   ],
   "note": ""
  },
  {
   "property": "C93",
   "status": "partial",
   "theorems": [
    "Pdfje.C93_again_partial",
    "Pdfje.C93_once_partial",
    "Pdfje.C93_add_partial",
    "Pdfje.C93_counterexample",
    "Pdfje.C93_add_counterexample",
    "Pdfje.C93_template_counterexample",
    "Pdfje.C93_template_partial"
   ],
   "note": "False as stated: contents given as iterators are used up by the first write, by Page.add and by the first page of a template (C93_counterexample, C93_add_counterexample, C93_template_counterexample). Proved: documents without iterators give the same pages whatever was written before; with iterators each used in one place, everything is there the first time; Page.add leaves pages without iterators as they are."
  },
  {
   "property": "C94",
   "status": "proved",
   "theorems": [
    "Pdfje.C94_lines",
    "Pdfje.C94_columns",
    "Pdfje.C94_text"
   ],
   "note": ""
  },
  {
   "property": "C95",
   "status": "proved",
   "theorems": [
    "Pdfje.C95_drawings"
   ],
   "note": ""
  },
  {
   "property": "C96",
   "status": "proved",
   "theorems": [
    "Pdfje.C96_newlines",
    "Pdfje.C96_text"
   ],
   "note": ""
  },
  {
   "property": "C97",
   "status": "proved",
   "theorems": [
    "Pdfje.C97_frame",
    "Pdfje.C97_pages"
   ],
   "note": ""
  },
  {
   "property": "C98",
   "status": "proved",
   "theorems": [
    "Pdfje.C98_cuts"
   ],
   "note": ""
  },
  {
   "property": "C99",
   "status": "proved",
   "theorems": [
    "Pdfje.C99_spans"
   ],
   "note": ""
  },
  {
   "property": "C100",
   "status": "proved",
   "theorems": [
    "Pdfje.C100_lines",
    "Pdfje.C100_paragraphs"
   ],
   "note": ""
  }
 ]
}