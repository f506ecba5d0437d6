NOTES['C23'] = ('partial', 'False as stated: str | RGB ignores the string even if malformed, and int(_, 16) accepts signs and spaces ("#+f0000"); proved otherwise.')
NOTES['C25'] = ('partial', 'False as stated for sequences that contain merged commands (chains): only the last chain survives; proved for unmerged commands and for a single command.')
NOTES['C54'] = ('partial', 'False as stated: negative components are accepted (RGB(-1,0,0), "#-f0000"); upper bound, hex values and injectivity proved.')
NOTES['C21'] = ('partial', 'False as stated: an empty text between two style changes makes parse.py merge merged commands, so the viewer uses another size than was measured (C21_counterexample); proved for all words built by any sequence of word operations from tidy passages.')
NOTES['C27'] = ('partial', 'False as stated: an empty passage after a break ends the paragraph and its text is lost (C27_counterexample), and styles can be lost (C27_counterexample_style); proved for tidy passages, which lines of non-empty passages always are (C27_tidy).')
NOTES['C35'] = ('partial', 'False as stated for columns of negative height (margins larger than the page): the layout never ends (C35_counterexample); proved for all other columns, for both orphan settings, and for paragraphs of any text set by first-fit (C35_paragraph_partial).')
NOTES['C40'] = ('partial', 'False as stated for boxes where a hyphen is wider than the syllable after it (C40_counterexample): the line is given up at the hyphen; proved for all boxes for which too long lines stay too long, and for all boxes against breaks that do not run over such positions.')
NOTES['C41'] = ('partial', 'False as stated, like C40 (C41_counterexample: a word that fits is refused because it does not fit with the hyphen); proved for all boxes for which too long lines stay too long, and for all boxes one-sidedly.')
NOTES['C36'] = ('partial', 'First-fit: proved. Optimal line breaks: false as stated if the first column is over-full already (a column lower than a line was given one): two more lines are put in it (C36_counterexample); proved for columns whose free height is not negative.')
NOTES['C42'] = ('partial', 'False as stated: a syllable wider than the column gives an error in left-aligned text (C42_counterexample); proved for justified text with non-negative widths, and for other text if every syllable with its hyphen fits in every column.')
NOTES['C43'] = ('partial', 'False as stated if the first column is over-full already: the last line is lost (C43_counterexample); proved for columns whose free height is not negative.')
NOTES['C44'] = ('partial', 'False as stated: lines whose spaces would have to be exactly twice as wide are not stretched (C44_counterexample); proved otherwise.')
NOTES['C45'] = ('partial', 'False as stated if the first column is over-full already (C45_counterexample); proved for columns whose free height is not negative.')
NOTES['C55'] = ('partial', 'False as stated: a polyline whose first point is an XY raises a TypeError (C55_counterexample); proved for all other point lists.')
NOTES['C50'] = ('partial', 'False as stated: a rule that does not fit repeats the whole column and is drawn below its edge (C50_counterexample, C50_repeated); proved for rules that fit in the current column.')
NOTES['C46'] = ('partial', 'False as stated: a line after an empty line with a change of style is measured in one style and shown in another (C46_counterexample). Count, baselines, leading and left edges are proved for all text drawings (C46_baselines); centre and right edges for text without such lines and without empty strings.')
NOTES['C47'] = ('partial', 'False as stated: text in a style of its own that starts with a newline is encoded for the wrong font (C47_counterexample); proved for text without empty strings in which no empty line has a change of style.')
NOTES['C46'] = ('partial', 'False as stated: a line after an empty line with a change of style is measured in one style and shown in another (C46_counterexample), and optimal line breaking gives right-aligned and centred lines a wrong width (C46_paragraph_counterexample). Count, baselines, leading and left edges are proved for all text drawings and paragraphs (C46_baselines, C46_paragraph_baselines, C46_paragraph_left_partial); centre and right edges for text drawings without such lines and without empty strings, and for first-fit paragraphs.')
NOTES['C48'] = ('partial', 'False as stated: where the style changes at the end of the first word of a chunk, that word is shown in the style after it (C48_counterexample); and where optimal line breaking leaves a line blank, a change of style after it is lost (C48_counterexample_blank). Proved for paragraphs in which the style changes at newlines only, first-fit or optimal (C48_newlines_partial), and for first-fit with any styles for all chunks that do not start with such a word (C48_firstfit_partial; C48_mixed_partial for either algorithm if no line is blank). Empty strings, font size 0, and optimal line breaks in over-full columns are excluded.')
NOTES['C66'] = ('partial', 'False as stated: widths are cut off to whole thousandths (C66_counterexample); proved from the bytes of the file: less than one thousandth off, exact for whole numbers (C66_file_partial), and how far glyphs are off (C66_positions_partial).')
NOTES['C67'] = ('partial', 'False as stated (C67_counterexample: the no-break space is measured as a question mark); proved for all characters except an explicit list of 27 (C67_widths_partial).')
NOTES['C69'] = ('partial', 'False as stated: where the first word does not fit with the indent, first-fit hyphenates or sets it without the indent (C69_counterexample). Proved for first-fit with exactly this exception, and without exception for optimal line breaks in columns that are not over-full; for paragraphs in which the style changes at newlines only.')
NOTES['C73'] = ('partial', 'False as stated: a rule that does not fit over-fills its column, and then a paragraph of one line raises an error (C73_counterexample). Proved for documents without rules that take height (C73_written_partial), and for documents made from a string (C73_text).')
NOTES['C75'] = ('partial', 'False as stated: colours are set between the construction and the painting of a path, where PDF allows no such operator (C75_counterexample). Proved from the bytes of the file: all other operators are where they are allowed (C75_lenient_partial), and on pages of text all are (C75_text_partial).')
NOTES['C72'] = ('partial', 'False as stated: with more than 100 different characters in an embedded font, its single bfchar section is longer than allowed (C72_counterexample). Proved for fonts used for at most 100 different characters, with the exact number of entries.')
NOTES['C70'] = ('partial', 'False as stated: of characters that share a glyph only the last is kerned (C70_counterexample), kerning of classes with glyphs in no class is ignored (C70_counterexample_class), and value formats other than 4 give an error (C70_counterexample_rtl). Proved for fonts whose subtables do not interact otherwise than pairs before classes, for characters with their own glyph (C70_kerning_partial).')
NOTES['C76'] = ('partial', 'False as stated: the text after the last break of a passage and the first word of a passage are not kerned with the character before (C76_counterexample). Proved: neighbours are spaced as the font says, or the first is a break character and they are not kerned at all: first-fit with any styles (C76_words_partial), either algorithm if styles change at newlines only (C76_newlines_partial); for a single string the exception is only after the last break (C76_string_partial). C76_mixed_partial: either algorithm and any styles, for paragraphs without blank lines whose chunks start quietly.')
NOTES['C77'] = ('partial', 'False as stated: optimal line breaking keeps the kerning with the dropped space at the start of a line, first-fit after a word too wide for the column (C77_counterexample). Proved: every line but the first starts at its left edge or is moved by the kerning with the end of the line before (C77_firstfit_partial, C77_newlines_partial, C77_mixed_partial).')
NOTES['C78'] = ('partial', 'False as stated: justified text with optimal line breaks and no stretchable space in a line overflows although it could be broken (C78_counterexample). Proved: first-fit, any styles, exceptions only lines of a single syllable (C78_firstfit_partial); optimal, exceptions only justified lines without a stretchable space (C78_optimal_partial); justified first-fit lines fill the column (C37_shown).')
NOTES['C81'] = ('partial', 'False as stated for A0 and A1, which are up to four points too small (C81_counterexample); proved for all other sizes, all units and the default page.')
NOTES['C83'] = ('partial', 'False as stated for the penalty for hyphens, which is added before squaring (C83_counterexample); proved for the penalties for consecutive hyphens and for differing fitness, for paragraphs with and without hyphens, and for when typesetting fails.')
NOTES['C90'] = ('partial', 'False as stated: weights are not counted from 100 on, so that every stem width is 23.875 too large before rounding (C90_counterexample). Proved: the exact map, for all documents and fonts (C90_stem_partial).')
NOTES['C93'] = ('partial', 'False as stated: contents given as iterators are used up by the first write, by Page.add and by the first page of a template (C93_counterexample, C93_add_counterexample, C93_template_counterexample). Proved: documents without iterators give the same pages whatever was written before; with iterators each used in one place, everything is there the first time; Page.add leaves pages without iterators as they are.')
