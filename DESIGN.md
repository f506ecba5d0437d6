# Formal model of pdfje in Lean 4 — design

Source: `/repo/src/pdfje` (read as text, never run). All line numbers in model comments refer to it.

## Trusted base

* Lean 4.33.0's kernel. Each property theorem depends on at most `propext`, `Classical.choice`, `Quot.sound`.
  No axioms of our own, no compiled-code tactics, no unfinished proofs. As `collectAxioms` reports them: `C46_accepted` needs none; `C22_or` and `C22_full` only `propext`; `C18_counterexample`,
  `C24_unchanged`, `C26_newlines`, `C27_tidy`, `C29_never`, `C29_syllables`, `C51_page_numbers` and `C67_widths_partial` only `propext` and `Quot.sound`; all others the three.
* The reading of the Python source into the model (each definition cites file and lines).
* The specifications in `Verif/Spec/*` (PDF readers/viewers written independently of the model's helpers),
  which paraphrase PDF 32000-1:2008.
* Model parameters standing for code outside the model:
  * `compress`/`decompress` (zlib): arbitrary functions with `decompress (compress x) = x`.
  * `token_bytes` (the file id): an arbitrary 16-byte value.
  * fontTools: cmap, hmtx, reverse glyph map, subsetter output, font descriptor numbers: arbitrary functions/values.
  * font metrics (`charwidth`, kerning tables): arbitrary functions (`World.builtin`, `FontFile`). `standardWorld` (Props/Standard) instantiates them with the
    transcribed tables of builtins.py, `Ttf.fontFile` (Model/TrueType) with what `Subset.new` computes from the tables of a font.
  * hyphenation callables: arbitrary functions `List Char → List (List Char)`; the vendored hyphenator is modelled itself.
  * Python's `str.lower`, `\w`: arbitrary functions/predicates on characters.
* Simplifications, used everywhere:
  * `float` is modelled by exact rationals `ℚ` (no rounding, no NaN, no infinities). The only infinities in the
    code (`tolerance * inf`) are modelled by an explicit extended tolerance type. `//` is `Int.floor` of the quotient.
  * `str` is `List Char` (unicode scalar values; lone surrogates, which Python strings can hold, are not modelled
    except in the font-encoding model, where characters are natural-number code points).
  * `bytes` is `List UInt8`. Python iterators/generators are lists; infinite iterators are functions from `ℕ`;
    `tee`/`prepend`/`peek` bookkeeping becomes list/stream slicing.
  * Exceptions are values (`Except`/`Option`), assertion failures included.
  * Unbounded loops over infinite column streams are partial fixpoints with values in `Option`: `none` means "error or never ends", and
    the success theorems (C35, C42, C65, C73) show when it is `some`.
  * Division by zero gives 0 in the model (`ℚ`), except in `optimum_fit`, where it is an error value. Where it matters theorems assume that font sizes are not 0.
  * `assert`s are always checked (as without `-O`). Arguments are of the documented types; `Style(color="")` is not modelled (it is treated as falsy by the code).
  * C01's offsets have ten digits: files are shorter than 10^10 bytes (hypothesis of the theorem).
  * `ColumnQueue`'s `bisect` is the index of the first column whose lines reach the number (same result for the non-decreasing counts that occur).
  * Page templates given as callables are total functions from the page number; `Page.content` is a list (one-shot iterators are in Model/Sources, C93: they show their drawings on the first page only).
  * Lines are encoded piece by piece; a kerned piece is a list of strings and adjustments.

## What is modelled (by source file)

| source | Lean module | notes |
|---|---|---|
| `atoms.py` | `Model/Atoms`, `Model/Num` | all writers, trailer, `write`, `_escape`, `sanitize_name`, `%i`, `%010i`, `%g` |
| `document.py` | `Model/Document`, `Model/Pages` | object numbering, page tree, zero-page check, chunked writing, page numbers; document content (`DocItem`, `DocContent`) in `Model/Pages` |
| `resources.py` | `Model/Resources` | font registry as explicit state |
| `fonts/common.py` | `Model/Fonts` | `kern`, `charkern`, builtin `encode` (cp1252), `to_resource` |
| `fonts/embed.py` | `Model/Embed` | cid allocation, `encode`, `W`, `CIDToGIDMap`, `ToUnicode`, object layout; fontTools itself is a parameter |
| the descriptor numbers in `fonts/embed.py` | `Model/Descriptor` | `_encode_bbox`, `_encode_flags`, `_encode_cap_height`, `_encode_stem_v`, glyph ids, from the decoded tables |
| `fonts/builtins.py` | `Model/Resources` (ids, names), `Model/Builtins` | the tables are transcribed by `tools/builtins.py` (`--check` compares) |
| `Subset.new` in `fonts/embed.py`, `vendor/get_kerning_pairs.py` | `Model/TrueType` | from the decoded tables (cmap, hmtx, GPOS) |
| `style.py`, `RGB` in `common.py` | `Model/Style` | `Style`, `StyleFull`, operators, `diff`, `flatten`, colours |
| `typeset/state.py` | `Model/Style`, `Model/Words` | commands, `Chain.squash`, `splitlines`, `max_lead` |
| `typeset/parse.py` | `Model/Parse` | regex word splitting, `_parse`, `_complete_word`, `_fold_commands` |
| `typeset/words.py` | `Model/Words` | all word types and operations, `_encode_kerning`, `into_syllables` |
| `typeset/hyphens.py`, `vendor/hyphenate.py` | `Model/Hyphenate`, `Model/English` (generated) | the trie is an inductive type; `str.lower` is a parameter; only ASCII digits and white space |
| `typeset/firstfit.py` | `Model/FirstFit` | complete |
| contents given as iterables (`document.py`, `page.py`, `layout/pages.py`) | `Model/Sources` | reading of collections and one-shot iterators; after an error the model says that all blocks were read |
| `typeset/knuth_plass.py` | `Model/KnuthPlass` | complete |
| `typeset/optimum.py` | `Model/Optimum` | complete |
| `typeset/layout.py`, `draw.py` | `Model/Render`, `Model/Ops` | lines, alignment, drawings; operators and their bytes |
| `units.py`, `XY` in `common.py` | `Model/Units` | complete |
| `layout/*.py`, `page.py`, `Sides` in `common.py` | `Model/Pages` | columns, `fill_pages`, paragraphs, rules, automatic pages |

Not modelled: fontTools' internals (decoding of tables, subsetting), zlib, the file system (only the sequence of chunks handed to it), `__repr__`s,
re-exports, typing stubs, docstrings, floating-point rounding.

## Wrong programs

Theorems are tested against edits of the model (`seeded/LOG.jsonl`, written by `tools/log.py`). For each edit the modules that the claim's theorems depend on are
elaborated again in a scratch copy, where a declaration that fails becomes an axiom; a theorem counts as failed if it is reported or rests on such an axiom. If the claim's theorems all
survive, they are tightened (or the edit turns out to break another claim, and is logged again under that).

## Properties: what is modelled and how it is proved

* C01 `write` → bytes; spec: offset table parsed from bytes; proof by induction over the object list (prefix sums).
* C02 object list of `_doc_objects`: ids are a permutation of 1..N; all refs occurring in atoms are ids of objects. Induction on pages/fonts.
* C03 same model; statement via lookup of the object with a given number.
* C04 bytes of a stream object, reader that takes `/Length` bytes. C08's reader includes it.
* C05 zero pages → `Except.error`.
* C06 independent literal string reader (7.3.4.2) with paren depth; induction on bytes.
* C07 hex reader; induction.
* C08 independent recursive-descent object reader with fuel; mutual induction over atoms.
* C09 FALSE in general (delimiters are left unescaped): negation witness + `_partial` for strings without delimiters.
* C10 FALSE in general (`%g` exponent notation): negation witness + `_partial` in the fixed-notation range, exact error bound proved for all.
* C11 chunk prefixes; last chunk is the only one ending in the EOF marker (modulo object contents) – stated on chunk boundaries.
* C12 write with two ids differ only inside the id hex strings.
* C13 cp1252 table; finite table facts by `decide +kernel`, lifted to all strings by induction.
* C14–C15 cid table as insertion-ordered association list; induction over encode history.
* C16 UTF-16 arithmetic, for all scalar values (omega / bit lemmas).
* C17–C18 registry invariants by induction over requests. C18 FALSE (symbol fonts share an id): witness + `_partial`.
* C19–C20 induction on text / kerning list against index-based specs.
* C21 viewer interpreter on TJ items; width lemma per word operation (hypothesis: viewer glyph widths = charwidth on the text used).
* C22–C23 case analysis on options.
* C24 spec: recursive effective style; proof by mutual induction over the span tree with pending commands.
* C25 FALSE for nested chains: witness + `_partial` (no nested chains), plus all uses.
* C26 induction over passages. C27 FALSE (empty passage after completed word): witness + `_partial`.
* C28–C31 induction on text/boxes.
* C32–C37, C59 first-fit: induction on fuel/words with measure.
* C38–C41 Knuth–Plass: invariant over the node map (every node is a feasible path; for each key the best path is kept).
* C42 FALSE in general (unbreakable piece wider than the column): witness + `_partial` success theorem.
* C43–C45 optimum layout over any break sequence with C38's shape. C44 FALSE at adjust = 2: witness + `_partial`. `C44_shown_partial` says it of the lines displayed of whole paragraphs (Props/Across, as `C37_shown` does for first-fit).
* C46 viewer positions; FALSE for optimal right/centre (width includes pruned space): witness + `_partial` (when line width is the displayed width).
* C47 FALSE (empty first line with style): witness + `_partial`. C48 FALSE (pre_state uses end state): witness + `_partial`.
  Also with style changes inside lines for either algorithm (`C48_mixed_partial`, Props/Mixed), if optimal breaking leaves no line blank; without that it is FALSE even
  for chunks that start quietly (`C48_counterexample_blank`).
* C49 fill_pages as list slicing on infinite page stream. C50 FALSE (column repeated): witness + `_partial`.
* C61–C63 (Props/Content): an independent content-stream reader (`Spec/Content`: tokens, operands, operators) and an independent extractor from the bytes of the file
  (`Spec/Extract`: trailer, page tree, resources, content, fonts, text). `OpsStand` (`Spec/Stands`) says which operators read stand for which operators of the model. Proved for
  whole documents (`WrittenDoc`: written completely, known typefaces, printable page sizes) through C08_file and the registry invariants; the operators of a page must have
  printable numbers (C10 is false otherwise).
* C64 (Props/Flow): C63 for automatic pages; `LinesRead` (Spec/Flow) is the relation between text and the lines read. By the tape view of columns (C48/C49), line by line.
* C65 (Props/Written): termination and success of the whole pipeline. `DocItem.Plain` (Spec/Written) is the condition; termination of paragraphs by C35, of pages by the tape
  view, registry growth by `Res.Within` (Proofs/Chars: every encoded character comes from the text or is a hyphen).
* C66 (Props/Widths) FALSE: `_encode_widths` cuts widths off to whole thousandths. Witness (a font with width 500.5), and `_partial`: less than one thousandth off (read from the
  bytes of the file), exact for whole numbers, and the resulting error of positions (`LinesNear`). `C15_file` is C15 from the bytes of the file.
* C67, C68 (Props/Standard): the width and kerning tables of builtins.py are data, transcribed by `tools/builtins.py` into Model/Builtins (`--check` compares); facts about the
  tables are decided by the kernel over the whole (finite) tables and lifted to all characters. C67 is FALSE (explicit list of exceptions; specification of what is displayed:
  Spec/Standard, from WinAnsiEncoding). Widths of Symbol and ZapfDingbats ("FUTURE: actual widths" in the code) are not claimed. `C65_standard` discharges C65's metrics hypothesis.
* C36_pages (Props/Columns): C36 lifted to whole pages (`ColumnFill.Inside`). C45_best_partial: optimality and the choice of tolerance (`FirstTol`, Spec/Breaks) for whole
  paragraphs (added after seeded bug n071). C46_accepted after n023.
* C19 also has `C19_metrics` (Props/Measure): which tables the fonts handed out by the registry measure with (added after seeded bugs n001, n002).
* C69 (Props/Indent) FALSE for first-fit (the indent is dropped with `without_init_kern` when the first word is cut): witness + `_partial` that names exactly the exception;
  for optimal line breaks without exception. Spec/Indent states it by what the viewer shows (x of the first glyph), added after seeded bug n048.
* C70 (Props/Kerning; Model/TrueType models `Subset.new` and vendor/get_kerning_pairs.py; Spec/OpenType says what the OpenType specification prescribes) FALSE as stated (three witnesses);
  `_partial` for fonts whose subtables do not interact. Scripts and languages are not distinguished, neither by the code nor by the specification; the legacy `kern` table is not read by the code and not part
  of the statement. How fontTools decodes the tables is trusted.
* C71 (Props/Orphans, Spec/Orphans): the layout with orphans avoided is stated in terms of the layout without, for columns with less room (`LessRoom`, `lineLess`). Invariant of the
  partial fixpoint `orphanLoop`: the queue is that of such columns. That the loop ends is part of C42.
* C72 (Props/Unicode) FALSE: all characters of a font are put in one `bfchar` section, whose length is the number of characters (read back by `bfchars`, which also checks the number
  announced); CMaps allow 100 entries per section. Witness: 101 characters; `_partial` for fonts used for at most 100 characters.
* C73 (Props/Sets, Props/SetsText) FALSE: a rule that does not fit over-fills its column, and then a default paragraph of one line raises `IndexError` (C73_counterexample). Proved without
  rules that take height (`C73_written_partial`), by an invariant of all columns (not over-full, wide and high enough) that every block keeps; every word is shorter than a line by the
  bounds on widths in Proofs/Measured, so the breaker always finds breaks. For `Document(text)` in the standard fonts everything is discharged except the length of words (`C73_text`;
  the tables of widths are checked by the kernel).
* C74 (Props/Painted): the viewer's path machine of Spec/Paths run on all operators of a page, by induction over drawings and blocks; with C61, these are the operators in the file.
* C75 (Spec/Grammar, Props/Painted) FALSE: colours are set after the path has been begun (C75_counterexample, from the bytes of a file). Proved from the bytes: everything else is allowed
  where it is (`C75_lenient_partial`), and pages of text only have no exception (`C75_text_partial`).
* C76 (Spec/Tight, Props/Tight) FALSE: the text after the last break of a passage, and the first word of a passage, are not kerned with the character before (C76_counterexample). Proved:
  on every line neighbours are spaced as the font says, or the first is a break character and there is no kerning at all (`C76_words_partial` first-fit, any styles; `C76_newlines_partial`
  either algorithm; `C76_mixed_partial` either algorithm and any styles, if no line is blank); in a single string the exception occurs only after its last break (`C76_string_partial`). The proof follows gaps (kerning, character, state) from the parser through
  hyphenation, both line breakers, indents and justification to what the viewer shows (Proofs/Gaps … Proofs/TightLines).
* C77 (same files) FALSE: optimal line breaking leaves the kerning with the dropped space at the start of lines, first-fit leaves it after a word too wide for its column
  (C77_counterexample). Proved: every line but the first starts at its left edge, or is moved from it by exactly the kerning with the end of the line before
  (`C77_firstfit_partial`, `C77_newlines_partial`, `C77_mixed_partial`).
* C78 (knuth_plass.py, firstfit.py, optimum.py, layout.py) FALSE: justified text with optimal line breaks puts "a-b" on one line 15.6 wide in a column 12 wide
  (C78_counterexample). Specified in Spec/Across on the glyphs a viewer shows. Proved: for first-fit, whatever the styles, lines not counting a space at their end are no wider
  than their column but for lines of a single syllable (`C78_firstfit_partial`); for optimal line breaks all but justified lines without a space that could be stretched
  (`C78_optimal_partial`). The lines of justified first-fit text fill their column: `C37_shown`.
* C79 (vendor/hyphenate.py) modelled: the trie as nested dicts (Model/Hyphenate), the English data (Model/English, generated by tools/english.py). Specified in Spec/Liang by what
  patterns say, without trie or point arrays. `C79_patterns`, `C79_exceptions`, `C79_english` (the English data meets the conditions). By kernel evaluation of the whole English table
  "hyphenation" has break places after 2 and 6 letters.
* C80 (atoms.py) the first two lines of what is written, also by unfinished writes: `C80_header`, against Spec/Header.
* C81 (units.py; Spec/Paper has the sheets of ISO 216 and the North American sizes) FALSE: A0 and A1 are about four points too small. Proved otherwise (`C81_units_partial`, `C81_default`).
* C82 (`XY` in common.py): the laws, over rationals. (Elsewhere in the model a point is a pair of rationals.)
* C83 (Props/Penalties): exchange argument on the total demerits of Spec/Breaks, of which two penalties are a linear part. FALSE for the penalty for hyphens, which is added before squaring.
  Counts of the penalised places are specified on break positions (Spec/Breaks). Competing optima must be comparable, so lines that are too long stay too long (as in C40).
* C84 (Props/Append): the loops over items and blocks are split at the end of what was there before (`docRun_more`, `autoLoop_more`); the rest is what C49 says of tapes.
* C85 (Props/Wrapped): `flattenItems_first` says that only what the pending commands amount to matters for the first command of a paragraph; the rest is algebra of `or` (C22) and induction over items, pages and blocks.
* C86 (Props/Moved, Spec/Moved): every operator of the moved program is the moved operator (`OpMoved`); viewers (glyphs, paths) and the loops over columns, pages and items are shown to commute with moving.
* C87, C88 (Props/Rescaled, Spec/Rescaled, Proofs/Rescaled*): one change `σ` of the unit and of colours is defined on everything a document is made of (`.via σ`), and every function of the model, from style differences over words, both line breaking algorithms (the loops that need not end by partial correctness in both directions) to pages and the viewers, is shown to commute with it. The colour in which a viewer starts does not matter because what each drawing and block writes sets its colours first (`SelfColored`).
* C89 (Props/Descriptor; Model/Descriptor models the font tables that `Subset.to_objects` reads, Spec/Descriptor says what a descriptor means): a reader of the file follows /DescendantFonts and /FontDescriptor and
  compares with the tables; for all tables. C15_glyphs: the glyph index is found in the glyph order of the saved font, by its own character map.
* C90 (Props/Descriptor) FALSE as stated (`C90_counterexample`); `C90_stem_partial` gives the exact map.
* C91 (Props/Isolated, Spec/Isolated) pages are isolated: `C91_isolated` (items written with an empty registry and with any reachable one give pages that show the same, up to an injective renaming of fonts that keeps variants and files) and `C91_after` (items after others in a document). Proved by the simulation of Proofs/Isolated*, on top of the changes of Proofs/Rescaled*.
* C92 (Props/Fewest, Spec/Fewest) first-fit uses the fewest lines: `C92_fewest` against every `Division` of the words (induction over the division: what is left of a division after its first line contains what first-fit leaves), `C92_attained`, `C92_wider`. Only for words that are not hyphenated.
* C93 (Model/Sources, Spec/Sources, Props/Sources) FALSE: what is given as content is kept as it is and read whenever the document is written, so iterators (which the types allow) are used up: `C93_counterexample`,
  `C93_add_counterexample`, `C93_template_counterexample`. Proved: documents without iterators give the same pages in every later state (`C93_again_partial`), documents with iterators each used in one place give all
  of their content the first time (`C93_once_partial`), `Page.add` (`C93_add_partial`), and what templates with an iterator show (`C93_template_partial`).
* C94 (Spec/Online, Props/Online) first-fit never looks ahead: `C94_lines` (columns of one width, orphans avoided or not), `C94_columns` (any columns, orphans not avoided), `C94_text` (from the
  text of a paragraph to the columns it fills). A line that is not the last is the same if there are more words (`takeLine_more`); the words of a text that ends in a break are the first words
  of a longer text (`parse_more`); newlines (`splitFrom_more`).
* C95 `C95_drawings` (Spec/Decorated, Proofs/Decorated): the run of a document and the run of its stripped version are simulated in lockstep. Both registries are related by a renaming of fonts
  (as for C91), the columns stay the same up to that renaming, and pages differ in the operators of their drawings, which come first. That the text does not see colours, fonts or paths left
  behind by the drawings is shown on the viewer (every text object sets what it uses). A document whose *drawings* raise an error is excluded.
* C96 `C96_newlines`, `C96_text` (Spec/Newlines, Proofs/Newlines): by induction on the lines. Filling columns with the first line and then the rest is filling them at once (a tape of columns determines
  the pages, `fillInto_twice`), the style after a text in one style is the style before it, and the fonts registered by pages written in between do not change how the rest is laid out (the
  renaming of C91, which is the identity here). Lines are texts without a newline that do not end in a carriage return. Text in several spans is not covered: a paragraph has one leading for all of it.
* C97 `C97_frame`, `C97_pages` (Spec/Framed): the two runs are simulated in lockstep, with equal registries and columns; errors are included.
* C98 `C98_cuts` (Spec/Joints, Proofs/Joints): the words parsed from the passages are equal, by induction on the passages; a cut may fall at the start of a word, or in a passage whose first
  characters end a word begun in another span (`parse_cut`, `parse_cut_later`). Then newlines (`splitFrom_cut`) and the flattening of spans (`flattenItems_cut`). The condition on kerning is needed:
  the code kerns a word with the space before it, but not across strings. The condition that no string is empty is needed too: text after an empty string at a word's end is lost (C27).
  A cut after a newline needs none of these: an empty passage that changes nothing comes before the next line then (`splitFrom_end`), which `intoWords` skips (`intoWords_alike`).
* C99 `C99_spans` (Spec/Unwrapped): flattening the content yields equal passages; the delayed style changes of the spans are idle (`flattenItems_todo`: pending changes of equal effect). C97, C98 and
  C99 share Proofs/Alike, a simulation of two documents whose pages and blocks are related.
* C100 `C100_lines` (Spec/Placed): first-fit makes lines one after the other, and in columns of one width none depends on the column (`linesFrom_unique`); optimal line breaks are found for line `C100_paragraphs`: several paragraphs; the registry after each block has the same fonts in both runs, because templates draw no text and writing pages only adds characters (Proofs/Bare `block_alike`, `writePages_bare`, `autoLoop_from`).
  lengths that are all equal then, whatever was done to the queue of columns (`optimum_placed`). `Tape.lines` collects the lines in the order of the columns, paragraph lines are added to two tapes in
  step (`linesFill_placed`), and the pages hold the tape (`pages_lines`). Only one paragraph is considered (several lines of one style are one, by C96): text on pages completed before registers
  characters of embedded fonts.
* C67 also: `C67_published`, the widths of ASCII characters against the tables Adobe publishes (Spec/Standard).
* C51–C53, C54 (FALSE for negative components: witness + `_partial`), C55 (FALSE for XY first point: witness + `_partial`), C56–C58, C60: direct.

## Disagreements between the properties and the code (findings)

Each is proved in Lean as a concrete counterexample next to the `_partial` theorem.

* C09 `sanitize_name` leaves `()<>[]{}/%` unescaped.
* C10 `%g` writes `1e+06`, `1e-05`.
* C18 the four variants of `symbol` (and `zapf_dingbats`) share one id.
* C25 `Chain.squash` drops all but the last nested `Chain`.
* C27 `_parse`'s `while txt` stops at an empty passage that follows a finished word: later text is lost.
* C35 negative column heights loop forever; zero lead divides by zero.
* C42 an unbreakable piece wider than the column makes ragged optimal layout raise `RuntimeError`.
* C44 `stretch_tail` ignores ratio 1 (adjust = 2): the line is not stretched.
* C46 widths of optimal lines include the dropped space / exclude the added hyphen.
* C47 `into_lines` forgets a style command on an empty line.
* C48 `ShapedText.pre_state` uses the *end* state of the first word.
* C48 `_into_lines_ragged` drops the command of a fragment that is alone on its line and has no box: `["aa bb ", Span(" ", bold), "cd"]` in a narrow column
  ends in bold. A comment in the code says this happens on the last line only; it does not.
* C50 `Rule.into_columns` re-uses the column it already gave back.
* C66 `_encode_widths` truncates widths (`int`).
* C67 no-break space, soft hyphen, and ¨ ¯ ´ µ ¸ ˜ are measured as `?`; characters outside of WinAnsiEncoding that the table knows (ﬁ, ﬂ, Ł, ...) are shown as `?` but measured as themselves.
* C69 first-fit drops the indent when the first word does not fit with it.
* C70 `for_font` inverts the cmap, so of characters that share a glyph (space and no-break space) only the last is kerned; class 0 second glyphs ignored; value format 5 (right to left) gives a string that
  fails when multiplied.
* C72 `_unicode_map` puts all entries into one `bfchar` section; the CMap specification allows at most 100.
* C73 a `Rule` that does not fit in the column is put there anyway (`height_free` becomes negative); a following paragraph of one line with the default settings raises `IndexError`.
* C75 `_finish` and `ShapedRule.render` write `rg`/`RG` between the construction and the painting of a path, which PDF does not allow (viewers tolerate it).
* C76 `_parse` drops the previous character: the last word of a string and the first word of each passage are not kerned with the space before them.
* C77 optimum.py never removes initial kerning at the start of a line; firstfit.py keeps it after a single word wider than the column.
* C78 knuth_plass.py:212-225 `ratio_justified` answers BIG + length/space, a *positive* ratio, for a line without stretch or shrink, also when it is too long; with the last
  tolerance (infinite) such an over-full line counts as feasible, so a possible break after a hyphen is not used. (Also: the last line of right-aligned first-fit text keeps its
  trailing space, so it may stick out to the left by that space.)
* C81 `units.A0` is 2380 x 3368 (ISO 216: 2384 x 3370) and `units.A1` is 1684 x 2380 (1684 x 2384).
* C83 the penalty for hyphens is added to a line's badness before that is squared, so it costs more on a bad line than on two good ones: raising it from 0 to 10 can raise the number of hyphens from one to two.
* C93 `Page`, `AutoPage` and `Document` keep iterators as they are: a second `write`, a second page of a template, or `Page.add` finds them empty.
* C90 stem widths: the comment in embed.py says weights 100-900 are mapped to 50-241, but the weight is not counted from 100, so they are mapped to 74-265.
* C54 negative colour components accepted. C55 first polyline point as `XY` raises `TypeError`.
