# Formal model of elsie: design

The subject is the Python library in /repo (elsie, a slide-deck library).  The
model is Lean 4 (4.33.0) with single Mathlib modules.  Nothing from /repo is run.

## Layout of the Lean project

* `Verif/Model/*.lean` : the model.  Each definition cites the file and lines it models.
* `Verif/Spec/*.lean`  : small specifications that do not use the model's helpers.
* `Verif/Proofs/*.lean`: helper lemmas.
* `Verif/Props/*.lean` : the property theorems (`C01_...`), each with examples
  showing that its hypotheses are met by a non-trivial case.
* `seeded/LOG.jsonl`   : record of deliberate model bugs and which theorems caught them.
* `tools/claims*.py`   : generates `properties.jsonl` and `MANIFEST.json`.
* `tools/cites.py`     : checks the citations of the model.

## Modelling conventions

* Python `str` is `List Char` (a sequence of code points).
* Python `int` is `Int` or `Nat` where the code can only produce naturals.
* Python `float` is `Rat` (exact arithmetic; rounding is not modelled) or `Real`
  where a square root is taken.  Every layout and geometry theorem is therefore about
  exact arithmetic.
* Exceptions are values: `Except Err`.  A failing operation that mutates state before
  raising is modelled as returning the mutated state together with the error.
* `\d`, `str.strip` and friends are modelled for ASCII; the restriction is noted at the
  definition.
* Objects shared by reference (style objects, style dictionaries) live in an explicit heap.
* Threads are modelled as programs of atomic steps with an interleaving relation.
* External programs and libraries (Inkscape, pygments lexers, Pango/Cairo, lxml, marko, the
  file system) are parameters with an explicitly stated contract.

## Trusted base

Lean's kernel; the axioms `propext`, `Classical.choice`, `Quot.sound`
(no others; the project adds none); the faithfulness of the definitions in
`Verif/Model` to the cited Python lines, which was established by reading.

## Plan per property
* **C01** Model parse_text/normalize_tokens; spec: styled-text trees, `render` to source and `denote` to tokens; induction on trees.
* **C02** Spec: an independent one-pass scanner that drops markup; induction on the remaining input.
* **C03** Same scanner's depth counter; error iff depth > 0 at the end; balance by an invariant on block count.
* **C04** Local predicate on adjacent tokens; invariant of the normalize loop; idempotence by the predicate.
* **C05** Corollary of the scanner with no escape character.
* **C06** Induction on tokens.
* **C07** False of the code: negation by witness, and the positive fact about what the code does.
* **C08** Equivariance by induction over the parse loop.
* **C09** Independent "strip labels" spec; induction on the stream; padding lemma for decimal numerals.
* **C10** Split a stream at line breaks; induction on prefix and suffix.
* **C11** Lock-step invariant over the merge loop: emitted text ++ remaining text; block stack discipline.
* **C12** False in general (blocks reopened in reverse order): witness; partial theorems for flat markup (C12_merge_styles_partial) and for nested user styles over flat highlighting (C12_merge_nested_partial: invariant on the positions where open sections began).
* **C13** Same invariant as C11.
* **C14** Model MyFormatter; induction on the lexed list.
* **C15** code() as composition; lexer as a parameter with contract; false with use_styles and edge line breaks: witness + partial.
* **C16** trim_indent on lines; idempotence fails: witness + partial.
* **C17** Induction on tokens against "n-th index satisfying".
* **C18** Rational arithmetic.
* **C19** Grammar of selectors as inductive spec; regex models as character-level matchers; both directions.
* **C20** Converse direction of the grammar.
* **C21** State machine of slide operations; invariant by induction over the history.
* **C22** Same machine.
* **C23** Same machine.
* **C24** Box tree, get_painters; path-based spec of visibility.
* **C25** Stable sort spec: permutation + sorted + stable.
* **C26** Layout function does not take show; two trees equal up to show.
* **C27** List splitting.
* **C28** False: witness; partial for the cases that fail before mutation.
* **C29** Layout pass on children; adjacent pairs.
* **C30** Sum of sizes.
* **C31** Sum of fill shares.
* **C32** False for fill: witness; partial for non-fill.
* **C33** Induction over trees with the size request as lower bound.
* **C34** Case analysis on optional paddings.
* **C35** False for horizontal parents: witness; partial for vertical parents and for x.
* **C36** Heap of rectangles with traversal order; partial for references to boxes earlier in preorder.
* **C37** Layout is a function of the tree and rectangle; false for scale_to_fit text: witness + partial.
* **C38** Grammar as spec, both directions; deviations as witnesses.
* **C39** Same as C38.
* **C40** Induction over trees.
* **C41** Computation on layout of a (100%, 100%) unmanaged child.
* **C42** Rational arithmetic.
* **C43** Record of options; false for priority: witness; partial for the others.
* **C44** Same record.
* **C45** Heap of style dictionaries; frame invariant over histories.
* **C46** Same heap.
* **C47** False (aliasing): witness; partial.
* **C48** State machine; invariant.
* **C49** False: witness; partial.
* **C50** Flattening.
* **C51** Arithmetic of div/mod and chunking.
* **C52** False: witness; partial for decks without PDFs or with PDFs at page boundaries.
* **C53** False: witness; partial.
* **C54** False under replace: witness; partial.
* **C55** Writer state machine refined by a forest builder.
* **C56** Escape and independent unescape.
* **C57** False for the apostrophe: witness; partial.
* **C58** draw_text as a program over the writer; false for hidden styles across lines: witness + partial.
* **C59** Spec by recursion on trees; svg false: witness; Cairo proved.
* **C60** Invariant over the loop.
* **C61** False for nested blocks: witness; partial.
* **C62** Tree pruning, path spec.
* **C63** Scheduling arithmetic.
* **C64** Forest flattening.
* **C65** Rational arithmetic.
* **C66** Polynomial identity.
* **C67** False: witness; partial.
* **C68** Rational arithmetic.
* **C69** Real arithmetic with sqrt.
* **C70** Interleaving semantics, inductive invariant.
* **C71** False: witness schedule; partial.
* **C72** False: witness; partial.
* **C73** State machine; false after prune: witness + partial.
* **C74** Crash semantics; false: witness + partial.
* **C75** Session histories; invariant.
* **C76** False for two renders: witness; partial.
* **C77** Injectivity of file names.
* **C78** State machine for nested builders.
* **C79** False: witness and closed form.
* **C80** Trees to markup composed with C01.
* **C81** State machine; invariant.
* **C82** False: witness; partial.
* **C83** Stream model; false at EOF: partial.
* **C84** Machine model of a Cairo context; false: witness; simulation between two contexts for the rest.
* **C85** False: witness; polynomial bounds for the rest.
* **C86** Context machine; implicit equation of the ellipse.
* **C87** Real arithmetic, dot products.
* **C88** Curves by parameter; false for T: witness; partial.
* **C89** False: witness; partial.
* **C90** Invariant on the directory across sessions.
* **C91** State machine for nested builders, arguments as partial functions.
* **C92** Trees to markup composed with C01; false: witnesses; partial.
* **C93** Stream model, sequence of replies.
* **C94** Injectivity of the renaming.
* **C95** Rational arithmetic; false for some units: witness; partial.
* **C96** The XML writer model (Model/Xml.lean) composed with a small SVG reader (attributes, style, transform, path data); false: witnesses; partial.
* **C97** Both context models composed: the SVG page is read back and the Cairo calls are run, and both are compared with one description of what is painted; false: witnesses; partial.
* **C98** `resolvePolicy` against the table in the docstring of `SlideDeck.__init__`; false: witness `"auto"` outside Jupyter and the two slides of one name it lets through; partial: all other values.
* **C99** Invariant of the layouts over all histories (one layout per box, attributes only change by raised minimal sizes), combined with C32; false: witness `fill`; partial: all other sizes.
* **C100** The same invariant with the request of an image in a box with a given size, combined with C32 and C42; false: witness with a width in percent; partial: numbers.
* **C101** Exact characterisation of `getStyle`/`newText` on the heap model, with an invariant that the object of a text item is changed by nothing but itself.
* **C102** Model/TextItem.lean composes `render` and `draw_text`; the document of C58 is read back: positions, `dy` and transformation give the base lines, compared with `line_box`.
* **C103** Model/TextQuery.lean: the document of a query as a program over the writer; by induction over the nesting of a line its forest has the id exactly at the chosen section (combining C10, C17, C58).
* **C104** `without u` removes a subtree; by induction the layout of the rest is the same, because requests, free space and fill unit only look at children without explicit position. For histories: filling a box made last changes only what `without` removes.
* **C105** exact version of C32 from the same characterisation of `childRect`; `fbox`/`sbox` as the arguments they pass on, combined with C31 and C35.
* **C106** invariant over histories: every node of the tree with the selectors around it agrees with visibility and level computed from the calls, the children of every box are those the calls put there; then C24 and C25.
* **C107** evaluation of lazy values is exactly the relation `Denotes` (C39 for strings); a value that refers to a box does not depend on where it is used. `C107_calls`: which calls are accepted, and the order of points and commands.
* **C108** the list of kept items follows the calls; every item writes a part that reads back as meant (C96, C102 from any state of the writer); the parts come in the order of C106. A picture is written as one string into the document, so its characters are read in the middle of the page as they are read alone (Proofs/XmlFrame).
* **C109** visibility, level and order (C106) of what the first calls create do not depend on the later calls; two lists with the same members in the same strict order are equal.
* **C110** scaling commutes with every function of the layout model, with parsing of arguments and with every call.
* **C111** the same for exchanging the axes; false: witness `y="[100%]"` in a row; partial: without percentages across the direction of the box around.
* **C112** every item alone is painted as meant (C97, C60 for texts); independence of the items (C84) carries this over to the page, whose order is that of C106; false: witnesses with a view box and with a picture of size 0.
* **C113** the root layout keeps its paddings and direction in every history of calls; then C35 and C105 for its children.
* **C114** the box of the background stays a child of the root without content, so C113 gives its rectangle; its level is the least of all (C106), so it is first in the page of C108 (C112).
* **C115** invariant of the calls on a deck: the slide `u` is in the state that the calls on it alone lead to, its background first; then C50 for the order of the pages and C108 (C112) for each of them.
* **C116** a document in which one element is open and the parts it contains so far (as in C108); invariant of the loop with the pages of the unfinished document; the documents are read back with the XML reader of C55.
* **C117** invariant of the cache (right files, nothing missing, only failing constructors unfinished), kept by all requests, and by pruning if there are no old files; loop of the export with the files so far in use; pruning keeps files in use.
* **C118** from C117 for PNG files that are not merged; induction over the files.
* **C119** the texts made of a part of a document are in a range of the children of one box (or, for the blocks of an item, first of the item and then of its list), in order; by mutual recursion over blocks and items, from C80, C05 and C15 for the texts.
* **C120** a call on a text is a call of `box` on its box (simulation of runs); the layout of every box created by a call is found among the children of the layout of its box, with its arguments (C29, C99); a box gets its rectangle before its children, so functions of it have their final value (C36).
* **C121** the checks as functions on Python values; the setters accept exactly the values of the specification, slot by slot; invariant of all operations on styles; `update` commutes with the reading of a style as a typed one.
* **C122** post-order walk of the call tree; the filter commutes with the stable sort by z-level; each painter is a function that adds its part to an open document.
* **C123** root box: the predefined styles fill the gaps of the copied dictionary; boxes by induction in the order they are made, each with the styles of its parent and the quotation style composed once more (composition is idempotent); texts read off their box.
* **C124** the layout that each call made (order_aux, box_attrs); rectangles once set are kept, so that references resolve to final rectangles whenever they resolve; C29, C30, C31, C35, C105 for the rest.
* **C125** an invariant of the state after a history: what is kept is what the first successful call of the kind found (`First`).
* **C126** reading the transformation back as in C108; the matrix of the new context as in C112; C99 for the room.
* **C127** the layout is monotone in the rectangles known before; lift to SVG and Cairo pages; induction over the work.
* **C128** invariant relating the deck to the list of last runs; rendering depends only on this list.
* **C129** the stack of open style names of every shown character (C14), turned into looks (C60) or attributes (C59); the table of a new deck looked up by token type.
* **C130** merging opens only styles of the two streams and gives each character both (C12, C15); priorities decide.
* **C131** the extracted line has the characters of the line with their looks (C10, C60); the byte range of an outermost section (C61); the loop over the characters between two bytes; anchors of the alignments.
* **C132** every call of Cairo commutes with a change of the device space; so does every drawing method, and the loop over the painters; the two starting contexts differ by the view box.
* **C133** the space between the rows as it is in the layout (C112), and arithmetic.
* **C134** the invariant of C75 for the first process, and that lookups in the cache are kept by queries and renders that do not prune.
* **C135** both programs are evaluated to explicit heaps that store one new style under the same name of the same box; C43 and C45 compare the styles and everything else.
* **C136** digits by cases, bits by arithmetic, and a converse reading of the pattern of `webcolors`.
* **C137** a deck after the function is a deck after a longer history (calls on different slides do not meet), then C115; the numbering from C21, C104, C113 and C124.
* **C138** the characters with the styles applied to them are the same with and without the markers (markers put `none` on the stack of styles), then C58, C59 and C60 on both texts.
* **C139** induction over the calls: the minimal sizes of the layout of a box are the maximum of what its argument and the calls on it ask for; then C105 for the sizes and the order of the boxes from C124.
* **C140** C15 for the characters of each step; the rows that are not empty are exactly the drawn lines, then C102 for the points; C124 and C139 for the overlays.
* **C141** C139 for the sizes of cells and rows, C124 for where the rows and the cells are stacked, C106 for what is on a page; the numbers of the boxes from the positions of the calls in the program.
* **C142** C139 for the height of the header and of its text, C124 for the places and for what `fill` leaves, C113 for the page.
* **C143** C05 for the text; C124 for a single box that fills, twice.
* **C144** The order of the layout as a relation on the calls; a walk over the tree for the evaluation of the dynamic values.
* **C145** The number of pages after a history as a count; strong induction on the boxes, since the box around a box comes before it in the source.
* **C146** The box that an item keeps is the first box of the chain of calls that made it, by induction on the calls; then call by call.
* **C147** The openings with the number of characters before them; they do not change in the normal form, and in the merged list those of the second text are where they were. Without cuts, an invariant of the loop: a section inside a token has at most as many characters left as the token.

## What is modelled

Modelled, up to the simplifications noted at the definitions:

| part of /repo/elsie | Lean | left out |
|---|---|---|
| text/textparser.py, highlight.py | Model/TextParser, Code, Theme | pygments itself (a parameter: lexers and themes) |
| text/textstyle.py, stylecontainer.py | Model/Style, StyleCheck (the checks of the setters) | nan and infinities; assignments to the slots themselves |
| text/textboxitem.py | Model/TextBoxItem, TextItem, LineBox, Draw, Slide | the width of a text (measured by the backend) |
| slides/show.py | Model/Show | digits outside ASCII |
| slides/slide.py, slidedeck.py | Model/Slide, Deck, Theme, Book, Grid, Output, Postprocess, Session, Notebook | progress output |
| docs/cookbook/codestepping.md | Model/CodeStep | negative line numbers; `code.strip()` (the code is given without white space around it) |
| docs/cookbook/grids.md | Spec/Grids (`gridCalls`) | colours and styles |
| docs/cookbook/headers.md | Spec/Headers (`initSlide`) | colours and styles |
| boxtree/value.py, lazy.py, layout.py, box.py, boxitem.py | Model/Layout, Slide, Scene, Debug | |
| boxtree/boxmixin.py | Model/Slide, Delegate, Draw, Scene, Code, Image, ImageFile, Arrow, PathArrow | what Pillow and lxml read (parameters) |
| render/image.py, ora.py, jupyter.py, inkscape.py | Model/Image, Ora, Jupyter, Inkscape | zip files, pictures, starting processes |
| render/render.py, pdfmerge.py | Model/Deck, Grid, Output | writing debug files; what PyPDF2 and pdfunite do |
| render/backends/svg/* | Model/Xml, SvgDraw, Scene, TextItem, TextQuery, SvgUtils, Cache | |
| render/backends/cairo/* | Model/CairoDraw, CairoText, CairoInline, Backends, SceneCairo, Colors | surfaces, the table of colour names, Pango (what it measures is a parameter), what cairosvg draws inside a picture |
| shapes/arrow.py, path.py | Model/Arrow, PathArrow, Scene | |
| utils/cache.py, geom.py, sxml.py, files.py | Model/Cache, CacheThreads, Geom, CairoDraw, Xml, ImageFile | |
| ext/list.py, markdown.py, latex.py | Model/ExtList, Markdown, MarkdownBlocks, MarkdownStyles, SvgUtils, Latex | running LaTeX, the parser of Markdown |
| ext/export.py | Model/Pptx | python-pptx |
| ext/todo.py | Model/Todo | colours |

Not modelled at all: render/backends/backend.py (abstract).

`python3 tools/cites.py` checks the citations: that the cited lines exist and, where a function is named, that they lie in it.
Ranges without a name were compared with the source by eye. More than 80 ranges, most of them off by a few lines, were corrected this way.

## Wrong programs

`seeded/mutants.py` lists edits of the model that look like real bugs, and `seeded/run.py` tries them in a copy outside /verif.
`seeded/LOG.jsonl` has the results. They must be read with care:

* "failed" lists theorems whose proof no longer compiles or that use such a proof. That is *weak* evidence. A proof can break because it
  unfolds the edited definition while its statement is still true of the edited model. Several edits are in the list only to measure this:
  they change nothing (or nothing that is a bug), and they break proofs all the same. An edit that breaks a lemma about one loop
  marks every claim built on that loop.
* "refuted" lists theorems whose statement is false of the edited model: the negation of the statement is proved there, with a concrete
  case. Only this shows that the statement excludes the bug.
* `"rebuilt": false` in LOG.jsonl: the edited model was not rebuilt with all proofs, only refutations were run. `theorems_failed` then lists only the refuted theorems.
* A surviving theorem is always real: its statement holds of the edited model.
* If Lean runs out of memory or time on a declaration there is no verdict for it; this is recorded under "resource".

## Where the code and the properties disagree

Generated by `tools/claims.py` from MANIFEST.json. The negation of each of these properties is proved, with what holds instead.

<!-- disagreements -->
* **C07** (Doubled escape character is a literal escape character) The documented behaviour does not hold: the parser has no escape for the escape character. The negation is proved, and what the parser does instead for every surrounding text.
* **C100** (Images in boxes with a given size) False for a width in percent: the minimal width is 0, so the image requests height 0 and is drawn over the neighbours. Negation proved; proved for sizes given as numbers, for all histories of calls.
* **C111** (Rows are columns with the axes exchanged) False: a position in percent across a row is computed from the width of the row instead of its height (layout.py:165), so a box with y='[100%]' on a 200 x 100 slide is at y = 190. Proved for layouts without percentages in that place.
* **C112** (Pages made with Cairo show what was drawn) False: SVG pictures ignore the view box of the slide (they are drawn in a new context), and a picture scaled to nothing is drawn with its own size. Negations proved; proved for everything else within the parts of C84 and C97 that hold. Where Pango puts the characters of a text, and the rows after the first, is left open.
* **C117** (render() delivers all pages) False: if there was an unused file of an earlier session in the cache directory, the second render() of a session raises FileNotFoundError (see C73). Negation proved; everything else is proved for renders after any requests, if nothing was pruned in the session yet or the directory had no cache files when it began. Inkscape, PyPDF2 and pdfunite are not modelled: what Inkscape exports is a function of the document.
* **C118** (A presentation shows the pages of the deck) False: the picture is stretched to the slides of the template, so a 16:9 deck is distorted on the 4:3 slides of the standard template. Negation proved; everything else is proved within the part of C117 that holds, and the proportions if those of the template are the same. python-pptx is not modelled.
* **C119** (Markdown is shown in its order) False: a list in an item is put below the whole item, also when the item goes on after the list; it is not in a quotation that is in the item; an ordered list in an item cannot start at 0. Negations proved; proved for all documents in which lists come last in items and are not in a quotation there. The Markdown parser (marko) is not modelled.
* **C12** (Merging keeps every character's styles) False of the code: reopened styles come back in reversed order when a token boundary cuts through two nested styles. Negation proved with a witness; the property is proved when neither markup nests styles, and when only the user's markup nests them and no token of the highlighting cuts two styles that began inside it.
* **C120** (Boxes of lines and sections are where the text is) False in a box with horizontal=True: width='fill' of a box that has a position is there a share of the free width, and 0 if no other box fills. Negation proved; proved for texts in columns, and in rows for everything but the width of line boxes; inline boxes without restriction. The measurements are those of the backend (C103).
* **C121** (A text style holds only allowed values) False: the docstring allows align='center', which is rejected, and restricts the opacity to 0 to 1, but all numbers are accepted. Negations proved; everything else is proved, with the alignments of the user guide and any opacity. Attributes whose names begin with an underscore (the slots) are not for users and left out.
* **C123** (Styles of Markdown documents) False: the styles of headings are named md-h1 to md-h6, not md-heading-1 to md-heading-6 as docs/userguide/markdown.md:129 says, so a style under the documented name has no effect. With the names of the code the rest holds. The box must have styles named default and code, as every deck has unless they are removed.
* **C125** (A picture shows what its file contains) False: the deck keeps what it read under a file name, so a figure written again under the same name is shown as it was the first time. Proved: exactly which calls are accepted and what each shows after any history (the first contents read successfully under the name; bytes as they are; the rest of a file object; ORA contents that failed to convert once make later calls wait for ever), and that a file that was not changed since its first use is shown as it is.
* **C126** (LaTeX formulas in their boxes) False with Cairo: the size of the box is given to draw_svg instead of that of the formula, so in a larger box the formula is drawn as large as the box, starting where it should start. Proved: it holds with SVG; with Cairo exactly if the box has the size of the formula (as a box of its own has). The room in the box is that of C99 (not for fill and dynamic sizes).
* **C127** (Working on a slide after it was shown) False: set_rect leaves the old rectangles in place, so a box that is put before the box it refers to is silently placed where that one was (a slide made anew raises an exception instead); and texts with scale_to_fit are drawn at a wrong scale the second time (C37). Proved: in all other cases, that is if the slide made anew can be shown and texts with scale_to_fit were made after the slide was shown for the last time, every page is the same.
* **C128** (A deck made in the cells of a notebook) False: a cell whose function raises has already removed the slide of its earlier run, and its unfinished slide stays at the end of the deck. Proved: everything else, including what is on the slide of a run that raised. Decks with external PDFs are left out (C49).
* **C129** (Highlighted code has the colours of its theme) False: a lexer with a token type that the theme does not know (themes of pygments know the standard types only) makes drawing raise. Proved for both backends whenever the types are known; for the SVG the texts have to be expressible in XML.
* **C13** (Merging rejects different texts) False of the code: the merge compares only lengths and line breaks, not letters. Negation proved; the exact condition under which the merge is rejected is proved instead.
* **C130** (Styles in highlighted code win over the theme) False: in ~alert{if} the keyword keeps the colour of the theme, because merging puts the style of the token inside that of the user. Proved for styles with a positive priority, in either order of nesting (Cairo); nested styles are left out (C12).
* **C131** (With Cairo an inline box is around its section) False: the box of b in ~a{~b{x}y} is also around the y. Proved for sections that are not inside another one, also for the boxes on a slide (with C120); for such a section without characters inline_box raises an AssertionError. What Pango measures is a parameter: characters side by side, as wide as the font says.
* **C132** (With Cairo a view box only moves and zooms) False: the space between the rows of a text is multiplied by the scale of the view box and then drawn in a context that already has this scale; SVG pictures are drawn in a context of their own without the view box. Proved for pages without SVG pictures up to the space between the rows (which is zoomed twice), and exactly for texts whose rows are as high as their font. No condition on the order of the drawing, on the arguments or on errors.
* **C133** (The rows of a text are apart as reserved, with Cairo) False: with a view box the space between the rows is zoomed twice, and a text that is scaled to fit has the space between its rows of the unscaled text. Proved: the rows are right exactly if line_spacing * size is the height of the font or the view box zooms by as much as the text is scaled (no view box and no scaling in particular). How Pango puts rows under each other (height of the font times the scale, plus the space) is an assumption in the specification.
* **C134** (Measured texts are not measured again) False: texts are measured when they are created, not when the deck is rendered, so the second of two renders with the default options drops all measurements. Proved for all measurements since the start of the process or the last render that pruned, whatever Inkscape would answer the second time.
* **C135** (update_style is a shortcut) False: `update_style` also resets the priority of the style to 0. Proved that this is the only difference, so that the two ways are the same precisely when a priority is given or the style had priority 0.
* **C136** (Colours mean in Cairo what they mean in SVG) False: `rgb(...)` and `hsl(...)` raise a ValueError with Cairo. Proved: precisely the keywords in any case and the hexadecimal values of three or six digits are accepted, with the right colour for shapes and texts (no rounding: the components for Pango are multiples of 257); everything else raises a ValueError.
* **C137** (Postprocessing adds to the slides and changes nothing else) False for decks with PDFs: a deck with a slide and a PDF cannot be rendered with a function that does nothing, as ExternPdfSlide has no method `box`. Proved for decks without PDFs, for SVG and (within the part of C112 that holds) Cairo, and all slides selected; the page numbers of the cookbook without further hypotheses.
* **C138** (Dummy styles have no visual effect) True for Cairo. False for SVG: in `~#m{~C{x}~D{y}}`, with C of higher priority than D, the `y` is not in style D, without the marker it is; and a line break inside a marker raises. Proved for SVG for the texts of C58 and C59, in particular if all priorities are equal and no line break is inside a marker.
* **C140** (Code shown step by step stays in place) False: in the step `[None, 1]` pygments removes the empty first line, so that line 1 is shown in the first row and moves when the first line appears. Proved if the first and the last place of every step show a line that is not empty (as in the example of the cookbook): the rows are the lines that were asked for, every line is drawn at the same point in all steps (SVG), and the overlays are where their parent is if the texts are not larger.
* **C143** (Placeholders fill their box and show the name) False for names with `~`, which are read as marked up text: the name `~tt{x}` is shown as `x`, and for `~a{` an exception is raised. Proved for names without `~`; the place of the frames for all names.
* **C147** (Sections of highlighted code are those written) False: a section that begins inside a token of the lexer and goes on behind it is shown as two sections, so `inline_box` is around the first part only and the numbers of later sections are shifted; the same can happen behind an empty section, and with nested sections for one that ends with its token. Negations proved. Proved for all markup: no section is lost, all begin where they were written and in that order, and the first section with a name is the first one written. The claim is proved for markup without empty sections in which no section that begins inside a coloured token reaches to its end, or, if sections are not nested, goes on behind its end. Missing: markup outside of these conditions that happens to be shown as written.
* **C15** (code() shows the code) False with a language and use_styles: pygments strips line breaks, so text that starts or ends with a line break inside a style raises. Negation proved; everything else proved for every lexer honouring the stated pygments contract, nested styles included unless two of them overlap and begin inside the same token (where C12 is false).
* **C16** (Removing common indentation) Idempotence is false (a final line break is lost at each application). Proved: exactly the common indentation is removed; idempotent when the last line is not blank.
* **C28** (A failed box() call changes nothing) False: a box() that fails on show/above/below leaves its layout behind and may already have raised the current fragment. Negation and the visible effect proved; page count and painted items proved unchanged, and nothing changes if the size arguments are wrong.
* **C32** (width/height are minimal sizes and content is respected) False for fill: a box with height='fill' can end up smaller than its content. Negation proved by a concrete tree; proved for every axis on which the box does not fill and has no dynamic size.
* **C35** (Explicit positions) False: in a horizontal box relative y values are computed from the parent's width (layout.py:165). Negation proved; everything else proved.
* **C36** (Dynamic positions resolve to the final layout) False for references to boxes laid out later (AttributeError). Negation proved; proved for references to earlier or enclosing boxes.
* **C37** (Rendering twice gives the same result) False for scale_to_fit texts: the layout callback scales the already scaled size, so the second render draws with scale 1. Negation proved; rectangles, text sizes and all other scales proved stable.
* **C38** (Size strings) False: 'fill(3))' and strings with a final line break are accepted. Negation proved; documented strings proved to mean what is documented, and nothing else is accepted up to these two deviations.
* **C39** (Position strings) False: a final line break is accepted. Negation proved; documented strings proved to mean what is documented, and nothing else is accepted up to the line break.
* **C43** (Unspecified style attributes are inherited) False for priority: its default is 0, not None, so composing always overwrites it. Negation proved; proved for every other attribute.
* **C47** (A style once assigned is fixed) False: with the default base, set_style stores the caller's object itself. Negation proved; with another base, and for update_style, later changes of the argument are proved to have no effect.
* **C49** (Adding a PDF does not disturb slide creation) False: get_slide_by_name reads .name of every entry, which an external PDF does not have. Negation proved, and the exact condition under which a fresh name is accepted.
* **C52** (Grouping keeps the order with embedded PDFs) False: a PDF is emitted before the slides still collected for the current grid. Negation proved; nothing is lost, slides and PDFs each keep their order, and the exact condition for the whole order to be kept.
* **C53** (slides_per_page=(R,C) means R rows and C columns) False: the first component is the number of columns. Negation proved, and the actual meaning of the components.
* **C54** (Debug files do not overwrite each other) False under policy replace: a replaced slide frees an index that is given out twice. Negation proved; proved for ignore and unique.
* **C56** (Element text survives escaping) False: characters that XML forbids (e.g. a form feed) are written as they are, and a carriage return is read as a line feed. Negation proved; the partial theorem gives the exact set of texts that survive.
* **C57** (Attribute values survive escaping) False: an apostrophe ends the attribute. Negation proved; the partial theorem says exactly when a value is read back, and that a value with an apostrophe never is.
* **C58** (Every balanced text renders to well-formed SVG) False: a line break inside a style that is not applied (a #name section, or one of lower priority) makes drawing raise. Negation proved, and that it fails for every text with a line break inside a section whose name is not in the table; proved for texts whose line breaks are inside styles that are certainly applied.
* **C59** (Style priority) False for SVG: the priority of a closed style is not forgotten if the style around it is not applied. Negation proved; proved for SVG when styles applied directly inside unapplied ones have the priority in force; proved without restriction for Cairo.
* **C61** (Cairo inline_box measures exactly the styled section) False for nested sections: the range ends where the outermost section ends. Negation proved, the exact result for every section, and the claim for outermost sections.
* **C62** (Fragments inside images) False: lxml removes the text after an element together with the element. Negation proved; the exact result for every tree, the exact condition under which it is the pruned tree, and that the documents in memory (deepcopy is modelled with object identities) are unchanged.
* **C63** (Image fragments are scheduled on the slide as documented) False for images whose labels need only one fragment: they are shown unfiltered in all later fragments. Negation proved; proved for every other case, the exact result for that case, and enough pages in all cases.
* **C67** (Smooth path commands follow SVG) False: after an S command the wrong control point is remembered, and only the first group of arguments of a command is drawn. Negations proved; proved for paths with one group per command in which no S follows an S.
* **C71** (The constructor runs at most once per key) False: in_progress is set after the lock is released, so two calls can both run the constructor; one then fails with a KeyError, and a file is returned while it is rewritten. Negations proved; proved (at most once, no failures, no deadlock) for every schedule that avoids that gap.
* **C72** (A failed construction can be retried) False: after an exception the file stays in in_progress and all later calls block for ever. Negation proved; other files are not affected, and the exception reaches the caller.
* **C73** (Pruning keeps what was used, and the cache stays usable) False: removed files stay in cache_files, so asking for one again gives a missing file and pruning again raises FileNotFoundError. Negations proved; the first pruning of a session is proved exact, and all requests but those for removed files keep working.
* **C74** (A crash never leaves a bad cache entry) False: files are written in place, so a half-written file is used by the next session. Negation proved; all other requests are proved right, and the next pruning removes the file if it is not asked for. The file of the query cache has the same problem, with worse consequences: half a JSON text cannot be read, and no process can be started until the file is deleted (negation proved, and that otherwise the old or the new measurements are there).
* **C76** (Rendering saves the measurements it used) False: a second render saves an empty cache. Negation proved; after a default render the file has exactly the queries since the previous pruning render or the start.
* **C79** (List indentation) False: the indent of the enclosing lists is added again at every level, so items at depth k are indented by d*k*(k+3)/2. Negation proved, the exact indent is proved, on the layout model; deeper lists are always indented further.
* **C82** (Renaming ids keeps references resolved) False: of two references in an attribute one is lost, and an id that is the beginning of another name (even of a colour) and comes later breaks it. Negations proved; proved for documents without these. Text of style elements is not treated by the code and not modelled.
* **C83** (Inkscape replies are read exactly) False: without a prompt (Inkscape ended) the loop never ends. Negation proved; with a prompt the reply and the rest are proved exact.
* **C84** (Items do not influence each other (Cairo)) False: the dashes of a stroked ellipse stay on, and the point where a text was drawn is joined to the next ellipse by a line. Negations proved; proved when no dashed ellipse, text or picture was drawn before, and in other stated cases.
* **C85** (Rounded corners are elliptical) False: two of the four corners use a misplaced control point. Negation proved; two corners are within 0.1 % and the other two within 10 % of the ellipse (in its equation).
* **C88** (Arrows at the end of a path follow the path) False for T: the arrow follows the chord. Negation proved; proved for C, S and Q.
* **C89** (Accepted paths can be drawn) False: a command without points is accepted and fails in Cairo. Negation proved; proved for commands with points.
* **C92** (Markdown shows its text) False: code spans and other unsupported elements are dropped with their text, and the escape character and closing brackets of the text are taken as Elsie markup. Negations proved; proved for trees of the supported elements whose text has none of these characters.
* **C95** (SVG images have the size they declare) False: inches, picas and quarter millimetres are taken as pixels. Negation proved; proved for px, pt, mm, cm and no unit, to one part in 100000.
* **C96** (SVG pages show the shapes that were asked for) False: a radius of zero next to a nonzero one is left out, so SVG rounds both ways, and an outline of width zero is drawn with width 1. Negations proved; everything else is proved.
* **C97** (Both backends draw the same shapes) False: a radius of zero next to a nonzero one, outlines of polygons (not closed with Cairo, so the first corner is not joined), dash patterns with commas (ValueError with Cairo), and ellipses and bitmaps without width or height (cairo.Error and ZeroDivisionError with Cairo). Negations proved; proved for the other shapes and bitmaps, with rounded corners compared by their ends, and for polygons up to the last join.
* **C98** (Documented name policies) False: "auto" outside Jupyter ignores names, while it is documented as "unique". Negation proved; every other value has the documented meaning, and no other value is accepted.
* **C99** (Texts and images fit into their boxes) False for sizes given as fill (the box gets what is left, whatever its content needs). Negation proved; proved for every other size, for all histories of calls. Missing: fill, dynamic sizes, and content put directly on the slide.
<!-- end -->
