{"id": "C01", "title": "Inline markup round-trips", "statement": "Text written with inline styles `~style{...}`, nested to any depth and containing any text runs that avoid the three delimiter characters, is understood exactly: the parsed stream is, in document order, the text runs, line breaks and style openings/closings that were written (after the documented normal form: empty runs dropped, consecutive line breaks merged, line breaks moved outside a closing, trailing line breaks dropped).", "quantifier": "every styled-text tree, every choice of the three distinct delimiter characters", "why_tests_cant": "ranges over unboundedly many inputs; a test can only sample literals", "anchors": ["elsie/text/textparser.py:parse_text", "elsie/text/textparser.py:normalize_tokens", "elsie/boxtree/boxmixin.py:BoxMixin.text"]}
{"id": "C02", "title": "Displayed text is the source with the markup removed", "statement": "Whenever box.text(s) accepts s, the characters displayed are exactly the characters of s outside of the markup (escape character, style names, opening brackets and the closing brackets that close a style), in order, except that line breaks at the very end may be dropped.", "quantifier": "every string and every choice of delimiters", "why_tests_cant": "ranges over unboundedly many inputs; a test can only sample literals", "anchors": ["elsie/text/textparser.py:parse_text", "elsie/text/textparser.py:tokens_to_text_without_style"]}
{"id": "C03", "title": "Only an unclosed style is rejected, and accepted text is balanced", "statement": "box.text(s) raises exactly when some inline style is still open at the end of s; otherwise the style openings and closings in the result are properly nested.", "quantifier": "every string and every choice of delimiters", "why_tests_cant": "ranges over unboundedly many inputs; a test can only sample literals", "anchors": ["elsie/text/textparser.py:parse_text", "elsie/text/textparser.py:normalize_tokens"]}
{"id": "C04", "title": "Parsed text is in normal form and normalising twice changes nothing", "statement": "In any parsed text there is no empty run, no run containing a line break, no two adjacent line-break tokens, no line break directly before a closing, and no line break at the end; normalising an already normalised text is the identity.", "quantifier": "every string and every choice of delimiters; every token stream", "why_tests_cant": "ranges over unboundedly many inputs; a test can only sample literals", "anchors": ["elsie/text/textparser.py:parse_text", "elsie/text/textparser.py:normalize_tokens"]}
{"id": "C05", "title": "Text without the escape character is shown verbatim", "statement": "If the escape character does not occur in the text (or styles are disabled, as in code() without use_styles), the text is displayed verbatim and unstyled, apart from dropped trailing line breaks; brackets are ordinary characters.", "quantifier": "every string", "why_tests_cant": "ranges over unboundedly many inputs; a test can only sample literals", "anchors": ["elsie/text/textparser.py:parse_text", "elsie/boxtree/boxmixin.py:BoxMixin.code"]}
{"id": "C06", "title": "Line count", "statement": "The number of lines used to size a text or code item equals one plus the number of line breaks in its displayed text.", "quantifier": "every token stream, in particular every parsed text", "why_tests_cant": "ranges over unboundedly many inputs; a test can only sample literals", "anchors": ["elsie/text/textparser.py:number_of_lines", "elsie/text/textboxitem.py:TextBoxItem._make_query"]}
{"id": "C07", "title": "Doubled escape character is a literal escape character", "statement": "As documented (docs/userguide/text.md), writing the escape character twice displays it once, literally.", "quantifier": "every text surrounding the doubled escape character", "why_tests_cant": "ranges over unboundedly many inputs; a test can only sample literals", "anchors": ["elsie/text/textparser.py:parse_text", "docs/userguide/text.md"]}
{"id": "C08", "title": "Delimiters are interchangeable", "statement": "Changing the delimiter characters (escape_char of length 3) consistently in the call and in the text changes nothing: parsing commutes with every injective renaming of characters that keeps the line break fixed.", "quantifier": "every string, every delimiter choice, every injective renaming", "why_tests_cant": "ranges over unboundedly many inputs; a test can only sample literals", "anchors": ["elsie/text/textparser.py:parse_text", "elsie/boxtree/boxmixin.py:BoxMixin.text"]}
{"id": "C09", "title": "Line numbers", "statement": "code(line_numbers=True) prefixes line k of the snippet with the number k, zero-padded so that all labels have the same width, followed by a space, and leaves the rest of the snippet (text, line breaks, styles) unchanged; styles stay balanced.", "quantifier": "every token stream (any number of lines)", "why_tests_cant": "ranges over unboundedly many inputs; a test can only sample literals", "anchors": ["elsie/text/textparser.py:add_line_numbers"]}
{"id": "C10", "title": "Extracting the line of an inline style", "statement": "The line handed to the text-measuring backend for inline_box consists of the styles open at the start of the line, the tokens of that line and the matching closings: it is balanced, has no line break, shows exactly the text of that line, and the returned index still designates the chosen style opening.", "quantifier": "every balanced token stream and every index that is not a line break", "why_tests_cant": "ranges over unboundedly many inputs; a test can only sample literals", "anchors": ["elsie/text/textparser.py:extract_line", "elsie/text/textparser.py:_open_blocks", "elsie/text/textparser.py:_open_blocks_count"]}
{"id": "C11", "title": "Merging two markups of one text keeps the text and stays balanced", "statement": "Merging user styles with syntax-highlighting styles over the same text never fails, and the result shows exactly that text with properly nested styles.", "quantifier": "every pair of balanced normalised token streams with equal displayed text", "why_tests_cant": "ranges over unboundedly many inputs; a test can only sample literals", "anchors": ["elsie/text/textparser.py:tokens_merge", "elsie/text/textparser.py:_tokens_merge_helper"]}
{"id": "C12", "title": "Merging keeps every character's styles", "statement": "After merging, every character carries exactly the styles it carried in the first markup together with those it carried in the second.", "quantifier": "every pair of balanced normalised token streams with equal displayed text", "why_tests_cant": "ranges over unboundedly many inputs; a test can only sample literals", "anchors": ["elsie/text/textparser.py:tokens_merge"]}
{"id": "C13", "title": "Merging rejects different texts", "statement": "Merging two balanced normalised markups whose displayed texts differ raises instead of producing a mixed text.", "quantifier": "every pair of balanced normalised token streams", "why_tests_cant": "ranges over unboundedly many inputs; a test can only sample literals", "anchors": ["elsie/text/textparser.py:_tokens_merge_helper"]}
{"id": "C14", "title": "Syntax highlighting neither loses nor invents text", "statement": "Whatever tokens the lexer produces, the highlighted stream shows the concatenation of the lexed values (minus trailing line breaks), balanced, each value under the style of its token type.", "quantifier": "every list of (token type, value) pairs", "why_tests_cant": "ranges over unboundedly many inputs; a test can only sample literals", "anchors": ["elsie/text/highlight.py:MyFormatter.format", "elsie/text/highlight.py:highlight_code"]}
{"id": "C15", "title": "code() shows the code", "statement": "code(language, text, ...) displays the given text with tabs replaced by `tabsize` spaces and (with use_styles) the markup removed, up to trailing line breaks; without use_styles the leading line breaks dropped by the lexer are the only other loss; it does not raise for well-formed markup.", "quantifier": "every text, tab size, and every lexer that honours the pygments contract", "why_tests_cant": "ranges over unboundedly many inputs; a test can only sample literals", "anchors": ["elsie/boxtree/boxmixin.py:BoxMixin.code"]}
{"id": "C16", "title": "Removing common indentation", "statement": "trim_indent removes the same number of leading whitespace characters from every non-blank line, as many as possible, and changes nothing else; applying it twice is the same as applying it once.", "quantifier": "every text with at least one non-blank line", "why_tests_cant": "ranges over unboundedly many inputs; a test can only sample literals", "anchors": ["elsie/text/textparser.py:trim_indent", "elsie/ext/markdown.py:markdown"]}
{"id": "C17", "title": "inline_box selects the n-th occurrence", "statement": "inline_box(name, n) refers to the n-th opening of style `name` in document order if there are at least n of them and raises otherwise.", "quantifier": "every token stream, style name and n >= 1", "why_tests_cant": "ranges over unboundedly many inputs; a test can only sample literals", "anchors": ["elsie/text/textboxitem.py:TextBoxItem.inline_box"]}
{"id": "C18", "title": "Line boxes tile the text", "statement": "line_box(i) starts at the top of line i; consecutive line boxes are one line height apart, the first starts at the top of the text block, the one past the last line starts at its bottom, and the text block is vertically centred in its box.", "quantifier": "every rectangle, text size and number of lines (exact arithmetic)", "why_tests_cant": "ranges over unboundedly many inputs; a test can only sample literals", "anchors": ["elsie/text/textboxitem.py:TextBoxItem.line_box", "elsie/text/textboxitem.py:TextBoxItem._text_box_helper"]}
{"id": "C19", "title": "Meaning of show selectors", "statement": "A box created with show=\"i1,i2,...\" is visible in fragment s iff some item selects s: n selects n, n+ selects every fragment >= n, a-b selects a..b inclusive; `last`/`next` stand for the current fragment / the one after it. show=None selects every fragment >= 1 and show=n selects n.", "quantifier": "every syntactically valid selector (any number of items, any surrounding whitespace), every current fragment, every fragment", "why_tests_cant": "ranges over unboundedly many inputs; a test can only sample literals", "anchors": ["elsie/slides/show.py:ShowInfo.parse", "elsie/slides/show.py:ShowInfo.is_visible", "elsie/slides/show.py:replace_relative_steps"]}
{"id": "C20", "title": "Invalid show selectors are rejected", "statement": "A show string is accepted only if each comma-separated item is (after stripping) one of the documented forms, at most one item is open-ended, no range is reversed and no placeholder is used without a current fragment; everything else raises.", "quantifier": "every string", "why_tests_cant": "ranges over unboundedly many inputs; a test can only sample literals", "anchors": ["elsie/slides/show.py:ShowInfo.parse"]}
{"id": "C21", "title": "Page count of a slide", "statement": "After any sequence of successful box/image calls, the number of pages rendered for a slide is max(1, the highest fragment requested by any box or image so far), and current_fragment() returns that number.", "quantifier": "every history of calls on a slide", "why_tests_cant": "every history", "anchors": ["elsie/slides/slide.py:Slide.steps", "elsie/boxtree/boxmixin.py:BoxMixin.box", "elsie/boxtree/box.py:Box._ensure_steps"]}
{"id": "C22", "title": "next opens a fresh fragment", "statement": "box(show='next') or 'next+' makes the box appear in a fragment strictly later than every fragment mentioned before on the slide; 'last' never adds a page; the current fragment never decreases.", "quantifier": "every history of calls on a slide", "why_tests_cant": "every history", "anchors": ["elsie/boxtree/boxmixin.py:BoxMixin.box", "elsie/slides/show.py:replace_relative_steps"]}
{"id": "C23", "title": "No fragment is lost", "statement": "Every fragment >= 1 selected by the closed items or the start of the open item of some box's show has a page, i.e. a box selected in fragment s is not silently dropped because the slide has too few pages.", "quantifier": "every history of calls on a slide and every box", "why_tests_cant": "every history", "anchors": ["elsie/slides/slide.py:Slide.steps", "elsie/slides/show.py:ShowInfo.max_step"]}
{"id": "C24", "title": "Visibility is hierarchical", "statement": "In fragment s exactly the items all of whose enclosing boxes are visible in s are painted, each exactly once.", "quantifier": "every box tree and fragment", "why_tests_cant": "ranges over unboundedly many inputs; a test can only sample literals", "anchors": ["elsie/boxtree/box.py:Box.get_painters"]}
{"id": "C25", "title": "Paint order", "statement": "Items are painted in order of z-level, and items of equal z-level in depth-first order of the tree; the z-level of a box is the given one or its parent's.", "quantifier": "every box tree and fragment", "why_tests_cant": "ranges over unboundedly many inputs; a test can only sample literals", "anchors": ["elsie/render/backends/svg/backend.py:InkscapeBackend.create_render_unit", "elsie/boxtree/box.py:Box.get_painters"]}
{"id": "C26", "title": "show does not influence layout", "statement": "Changing the show selector of any boxes leaves the rectangle of every box unchanged.", "quantifier": "every box tree and every pair of show assignments", "why_tests_cant": "ranges over unboundedly many inputs; a test can only sample literals", "anchors": ["elsie/boxtree/layout.py:Layout.set_rect"]}
{"id": "C27", "title": "Placement among siblings", "statement": "box(prepend=True) becomes the first child, above=c directly follows c, below=c directly precedes c, otherwise last; the relative order of the other children never changes. In the layout it is the first with prepend and the last otherwise.", "quantifier": "every list of children", "why_tests_cant": "ranges over unboundedly many inputs; a test can only sample literals", "anchors": ["elsie/boxtree/box.py:Box.add_child", "elsie/boxtree/layout.py:Layout.add"]}
{"id": "C28", "title": "A failed box() call changes nothing", "statement": "If box(...) raises (bad show, bad above/below, ...), the slide is as before: same page count, same layout, same painted items.", "quantifier": "every slide and every argument combination", "why_tests_cant": "failure points inside the call", "anchors": ["elsie/boxtree/boxmixin.py:BoxMixin.box", "elsie/boxtree/layout.py:Layout.add"]}
{"id": "C29", "title": "Managed children are stacked without gaps", "statement": "Along the main axis each managed child starts exactly where the previous managed child ends, in creation order.", "quantifier": "every box, children and rectangle (exact arithmetic)", "why_tests_cant": "ranges over unboundedly many inputs; a test can only sample literals", "anchors": ["elsie/boxtree/layout.py:Layout.set_rect"]}
{"id": "C30", "title": "Managed children are centred along the main axis when nothing fills", "statement": "If no managed child uses fill, the free space before the first and after the last managed child is equal.", "quantifier": "every box, children of documented size kinds (number, N%, fill) and rectangle (exact arithmetic)", "why_tests_cant": "ranges over unboundedly many inputs; a test can only sample literals", "anchors": ["elsie/boxtree/layout.py:Layout.set_rect"]}
{"id": "C31", "title": "fill distributes exactly the remaining space in the given ratio", "statement": "If some managed child uses fill, the managed children together occupy exactly the parent's main-axis extent, and the sizes of fill children are proportional to their fill numbers.", "quantifier": "every box, children of documented size kinds (number, N%, fill) and rectangle (exact arithmetic)", "why_tests_cant": "ranges over unboundedly many inputs; a test can only sample literals", "anchors": ["elsie/boxtree/layout.py:Layout.set_rect", "elsie/boxtree/value.py:SizeValue.compute"]}
{"id": "C32", "title": "width/height are minimal sizes and content is respected", "statement": "The final size of a box is at least its requested size and at least the size its content requests (userguide/layout.md).", "quantifier": "every box tree and rectangle", "why_tests_cant": "ranges over unboundedly many inputs; a test can only sample literals", "anchors": ["elsie/boxtree/layout.py:Layout.compute_size_request", "elsie/boxtree/layout.py:Layout.set_rect", "elsie/boxtree/value.py:SizeValue.compute"]}
{"id": "C33", "title": "Content stays inside", "statement": "If the slide is at least as large as its content requests, every managed box lies inside its parent's inner rectangle, at every depth.", "quantifier": "every box tree of fixed/default sizes with non-negative paddings", "why_tests_cant": "ranges over unboundedly many inputs; a test can only sample literals", "anchors": ["elsie/boxtree/layout.py:Layout.set_rect", "elsie/boxtree/layout.py:Layout.compute_size_request"]}
{"id": "C34", "title": "Padding shrinks the area given to content", "statement": "The area used for the content of a box is its rectangle shrunk by its paddings on each side, where each side's padding is the most specific one given (p_left over p_x over padding, absent = 0).", "quantifier": "every combination of padding arguments and every rectangle", "why_tests_cant": "ranges over unboundedly many inputs; a test can only sample literals", "anchors": ["elsie/boxtree/layout.py:Layout.add", "elsie/boxtree/layout.py:_set_padding", "elsie/utils/geom.py:Rect.shrink"]}
{"id": "C35", "title": "Explicit positions", "statement": "x/y given as a number offset from the parent's top-left corner, \"N%\" at that fraction of the parent's width/height, \"[N%]\" aligned so that 0%, 50%, 100% mean left/top, centre, right/bottom; unmanaged cross-axis default is centred.", "quantifier": "every parent (vertical and horizontal), rectangle and value", "why_tests_cant": "ranges over unboundedly many inputs; a test can only sample literals", "anchors": ["elsie/boxtree/layout.py:Layout.set_rect", "elsie/boxtree/value.py:PosValue.compute"]}
{"id": "C36", "title": "Dynamic positions resolve to the final layout", "statement": "A position obtained from another box's x()/y()/p() and used to place a box resolves to that box's final rectangle.", "quantifier": "every box tree and every reference between boxes", "why_tests_cant": "depends on traversal order over all trees", "anchors": ["elsie/boxtree/layout.py:Layout.x", "elsie/boxtree/layout.py:Layout.set_rect", "elsie/boxtree/lazy.py:LazyValue"]}
{"id": "C37", "title": "Rendering twice gives the same result", "statement": "Laying out and rendering the same unchanged deck again produces the same rectangles, text scale and text size.", "quantifier": "every box tree, rectangle and text size", "why_tests_cant": "depends on history of renders", "anchors": ["elsie/slides/slide.py:Slide.prepare", "elsie/boxtree/layout.py:Layout.set_rect", "elsie/text/textboxitem.py:TextBoxItem.__init__"]}
{"id": "C38", "title": "Size strings", "statement": "width/height strings are accepted iff they are digits, digits%, fill or fill(digits), and denote that minimal size, ratio or fill factor; anything else raises.", "quantifier": "every string", "why_tests_cant": "ranges over unboundedly many inputs; a test can only sample literals", "anchors": ["elsie/boxtree/value.py:SizeValue.parse"]}
{"id": "C39", "title": "Position strings", "statement": "x/y strings are accepted iff they are digits, digits% or [digits%], and denote that offset, ratio or alignment; anything else raises.", "quantifier": "every string", "why_tests_cant": "ranges over unboundedly many inputs; a test can only sample literals", "anchors": ["elsie/boxtree/value.py:PosValue.parse"]}
{"id": "C40", "title": "Layout is translation invariant", "statement": "Moving the slide rectangle moves every box by the same vector and changes no size.", "quantifier": "every box tree without dynamic values, every rectangle and offset", "why_tests_cant": "ranges over unboundedly many inputs; a test can only sample literals", "anchors": ["elsie/boxtree/layout.py:Layout.set_rect"]}
{"id": "C41", "title": "overlay covers exactly the parent's inner area", "statement": "overlay() yields a box whose rectangle equals the inner rectangle of its parent, whatever the axis of the parent, as long as the overlay's own content is not larger.", "quantifier": "every parent and rectangle", "why_tests_cant": "ranges over unboundedly many inputs; a test can only sample literals", "anchors": ["elsie/boxtree/boxmixin.py:BoxMixin.overlay", "elsie/boxtree/layout.py:Layout.set_rect"]}
{"id": "C42", "title": "Images keep their aspect ratio and fit", "statement": "An image without explicit scale is drawn centred with its aspect ratio, not exceeding the box and touching it in at least one dimension.", "quantifier": "every non-degenerate box rectangle and image size", "why_tests_cant": "ranges over unboundedly many inputs; a test can only sample literals", "anchors": ["elsie/boxtree/boxmixin.py:scaler", "elsie/boxtree/boxmixin.py:BoxMixin._image_bitmap"]}
{"id": "C43", "title": "Unspecified style attributes are inherited", "statement": "a.compose(b) has b's value for every attribute b specifies and a's value for every attribute b leaves unspecified; neither a nor b changes.", "quantifier": "every pair of styles", "why_tests_cant": "ranges over unboundedly many inputs; a test can only sample literals", "anchors": ["elsie/text/textstyle.py:TextStyle.compose", "elsie/text/textstyle.py:TextStyle.update"]}
{"id": "C44", "title": "Composition is associative", "statement": "(a.compose(b)).compose(c) equals a.compose(b.compose(c)).", "quantifier": "every triple of styles", "why_tests_cant": "ranges over unboundedly many inputs; a test can only sample literals", "anchors": ["elsie/text/textstyle.py:TextStyle.compose"]}
{"id": "C45", "title": "Styles are scoped to the box and its later descendants", "statement": "set_style/update_style on one box never changes what an already existing other box, an already created text item, or the deck resolves for any style name; a new box resolves every name as its parent does at that moment.", "quantifier": "every history of style operations on a deck and its boxes", "why_tests_cant": "every history (aliasing of shared dictionaries)", "anchors": ["elsie/text/stylecontainer.py:StyleContainer.set_style", "elsie/text/stylecontainer.py:StyleContainer.update_style", "elsie/boxtree/boxmixin.py:BoxMixin.box"]}
{"id": "C46", "title": "get_style hands out a private copy", "statement": "Mutating a style returned by get_style changes no named style anywhere until it is set again.", "quantifier": "every history of style operations and mutations", "why_tests_cant": "every history (aliasing)", "anchors": ["elsie/text/stylecontainer.py:StyleContainer.get_style", "elsie/text/textstyle.py:compose_style"]}
{"id": "C47", "title": "A style once assigned is fixed", "statement": "After set_style(name, s), later in-place changes of the object s do not change the named style.", "quantifier": "every history of style operations and mutations", "why_tests_cant": "every history (aliasing)", "anchors": ["elsie/text/stylecontainer.py:StyleContainer.set_style"]}
{"id": "C48", "title": "Name policy", "statement": "Under policy unique or replace no two slides ever share a (non-None) name; under replace the most recent slide of a name is kept, at the end; under unique creating a duplicate raises and leaves the deck unchanged; other slides keep their order.", "quantifier": "every history of new_slide/add_pdf calls", "why_tests_cant": "every history", "anchors": ["elsie/slides/slidedeck.py:SlideDeck._apply_name_policy", "elsie/slides/slidedeck.py:SlideDeck.new_slide"]}
{"id": "C49", "title": "Adding a PDF does not disturb slide creation", "statement": "After add_pdf, slides with fresh names can still be created under every name policy.", "quantifier": "every history of new_slide/add_pdf calls", "why_tests_cant": "every history", "anchors": ["elsie/slides/slidedeck.py:SlideDeck.get_slide_by_name", "elsie/slides/slide.py:ExternPdfSlide"]}
{"id": "C50", "title": "Pages come out in order, each exactly once", "statement": "render() exports the pages slide by slide in deck order, fragment by fragment from 1 to the slide's page count, each exactly once.", "quantifier": "every deck", "why_tests_cant": "ranges over unboundedly many inputs; a test can only sample literals", "anchors": ["elsie/slides/slidedeck.py:SlideDeck.render"]}
{"id": "C51", "title": "Several slides per page", "statement": "slides_per_page=(x,y) produces ceil(n/(x*y)) pages for n rendered pages; page k holds pages k*x*y .. in order, each exactly once, in distinct grid cells inside the page, row by row.", "quantifier": "every number of pages and every grid", "why_tests_cant": "ranges over unboundedly many inputs; a test can only sample literals", "anchors": ["elsie/render/render.py:per_page_grouping"]}
{"id": "C52", "title": "Grouping keeps the order with embedded PDFs", "statement": "With slides_per_page, embedded PDF pages keep their place between the slides before and after them.", "quantifier": "every sequence of slides and PDFs", "why_tests_cant": "ranges over unboundedly many inputs; a test can only sample literals", "anchors": ["elsie/render/render.py:per_page_grouping", "elsie/slides/slidedeck.py:SlideDeck.add_pdf"]}
{"id": "C53", "title": "slides_per_page=(R,C) means R rows and C columns", "statement": "As documented, the first component is the number of rows and the second the number of columns.", "quantifier": "every grid", "why_tests_cant": "ranges over unboundedly many inputs; a test can only sample literals", "anchors": ["elsie/slides/slidedeck.py:SlideDeck.render", "elsie/render/render.py:per_page_grouping"]}
{"id": "C54", "title": "Debug files do not overwrite each other", "statement": "In debug mode every page of a deck is written to its own file.", "quantifier": "every history of slide creation under every name policy", "why_tests_cant": "every history", "anchors": ["elsie/render/render.py:SvgRenderUnit.write_debug", "elsie/slides/slidedeck.py:SlideDeck.new_slide"]}
{"id": "C55", "title": "The XML writer only emits well-formed documents", "statement": "Whatever sequence of element/set/text/close calls is made with XML names, characters XML allows, no apostrophe in attribute values and no attribute set twice on one element, if to_string succeeds the output is read back as the forest whose nesting is the nesting of the calls.", "quantifier": "every sequence of writer calls", "why_tests_cant": "every history", "anchors": ["elsie/utils/sxml.py:Xml"]}
{"id": "C56", "title": "Element text survives escaping", "statement": "Reading the XML produced for a text run gives back the run, with each space turned into a non-breaking space; no run can introduce markup.", "quantifier": "every string", "why_tests_cant": "ranges over unboundedly many inputs; a test can only sample literals", "anchors": ["elsie/utils/sxml.py:Xml.text", "elsie/utils/sxml.py:escape_text"]}
{"id": "C57", "title": "Attribute values survive escaping", "statement": "Reading an attribute written by the writer gives back the value; no value can end the attribute early.", "quantifier": "every string", "why_tests_cant": "ranges over unboundedly many inputs; a test can only sample literals", "anchors": ["elsie/utils/sxml.py:Xml.set", "elsie/utils/sxml.py:escape_text"]}
{"id": "C58", "title": "Every balanced text renders to well-formed SVG", "statement": "Drawing any balanced token stream whose styles exist succeeds and yields a well-formed <text> element that shows the text line by line.", "quantifier": "every balanced token stream, style table and alignment", "why_tests_cant": "ranges over unboundedly many inputs; a test can only sample literals", "anchors": ["elsie/render/backends/svg/draw.py:draw_text"]}
{"id": "C59", "title": "Style priority", "statement": "An inline style is applied iff its priority is at least the priority of the innermost enclosing applied style.", "quantifier": "every balanced token stream and style table; both backends", "why_tests_cant": "ranges over unboundedly many inputs; a test can only sample literals", "anchors": ["elsie/render/backends/svg/draw.py:draw_text", "elsie/render/backends/cairo/text.py:get_text_and_attributes"]}
{"id": "C60", "title": "Cairo attribute ranges partition the text", "statement": "The attribute ranges generated for the Cairo backend cover every byte of the text exactly once, in order, each with the style in force there.", "quantifier": "every balanced token stream and style table", "why_tests_cant": "ranges over unboundedly many inputs; a test can only sample literals", "anchors": ["elsie/render/backends/cairo/text.py:get_text_and_attributes"]}
{"id": "C61", "title": "Cairo inline_box measures exactly the styled section", "statement": "The byte range measured for an inline style starts where the style's text starts and ends where it ends.", "quantifier": "every balanced single-line token stream and every style opening", "why_tests_cant": "ranges over unboundedly many inputs; a test can only sample literals", "anchors": ["elsie/render/backends/cairo/text.py:get_byte_range"]}
{"id": "C62", "title": "Fragments inside images", "statement": "For image fragment f, exactly the elements that (themselves or through an ancestor below the root) carry a label not visible in f are removed; everything else is kept in place, and the cached image is not changed.", "quantifier": "every element tree, labelling and fragment", "why_tests_cant": "ranges over unboundedly many inputs; a test can only sample literals", "anchors": ["elsie/render/image.py:create_image_data"]}
{"id": "C63", "title": "Image fragments are scheduled on the slide as documented", "statement": "With show_begin=b, image fragment f is shown in slide fragment b-1+f and nothing before b; with select_fragments=[...], slide fragment b-1+k shows the k-th entry (None = nothing); the slide has enough pages for all of them.", "quantifier": "every image, show_begin, select_fragments and slide fragment", "why_tests_cant": "ranges over unboundedly many inputs; a test can only sample literals", "anchors": ["elsie/boxtree/boxmixin.py:BoxMixin._image_svg"]}
{"id": "C64", "title": "ORA conversion keeps visible layers in order", "statement": "Converting an ORA file yields, bottom-most first, exactly the non-empty layers all of whose enclosing stacks and themselves are visible.", "quantifier": "every layer tree", "why_tests_cant": "ranges over unboundedly many inputs; a test can only sample literals", "anchors": ["elsie/render/ora.py:_children_to_svg"]}
{"id": "C65", "title": "view_box shows the requested region", "statement": "With the Cairo backend, view_box=(x,y,w,h) maps that region, uniformly scaled and centred, completely onto the page, as large as possible.", "quantifier": "every page size and view box with positive sizes", "why_tests_cant": "ranges over unboundedly many inputs; a test can only sample literals", "anchors": ["elsie/render/backends/cairo/draw.py:apply_viewbox"]}
{"id": "C66", "title": "Quadratic curves are drawn exactly", "statement": "The cubic curve emitted for a quadratic segment coincides with it at every parameter.", "quantifier": "every three points and parameter", "why_tests_cant": "ranges over unboundedly many inputs; a test can only sample literals", "anchors": ["elsie/render/backends/cairo/shapes.py:draw_quadratic_bezier"]}
{"id": "C67", "title": "Smooth path commands follow SVG", "statement": "Cairo draws S and T (and repeated argument groups) as the SVG specification says: the first control point is the reflection of the previous curve's last control point.", "quantifier": "every command sequence", "why_tests_cant": "ranges over unboundedly many inputs; a test can only sample literals", "anchors": ["elsie/render/backends/cairo/shapes.py:draw_path"]}
{"id": "C68", "title": "Rounded rectangles close and stay inside", "statement": "The outline of a rounded rectangle returns to its start point and never leaves the rectangle, for any non-negative radii.", "quantifier": "every rectangle and non-negative radii", "why_tests_cant": "ranges over unboundedly many inputs; a test can only sample literals", "anchors": ["elsie/render/backends/cairo/draw.py:rounded_rectangle"]}
{"id": "C69", "title": "Resizing a segment", "statement": "segment_resize moves the end point along the segment so that its length changes by exactly the given amount.", "quantifier": "every non-degenerate segment and change (real arithmetic)", "why_tests_cant": "ranges over unboundedly many inputs; a test can only sample literals", "anchors": ["elsie/utils/geom.py:segment_resize", "elsie/shapes/arrow.py:Arrow.move_end_point"]}
{"id": "C70", "title": "A returned cache path is a finished file", "statement": "Whenever ensure() (waiting on collisions) returns normally in any thread, the file it names has been completely constructed by a constructor for that key or was present when the cache was opened.", "quantifier": "every number of threads and every interleaving", "why_tests_cant": "every schedule", "anchors": ["elsie/utils/cache.py:FsCache.ensure"]}
{"id": "C71", "title": "The constructor runs at most once per key", "statement": "Within a process the constructor for a given input runs at most once, whatever the interleaving, and no call fails because of another.", "quantifier": "every number of threads and every interleaving", "why_tests_cant": "every schedule", "anchors": ["elsie/utils/cache.py:FsCache.ensure"]}
{"id": "C72", "title": "A failed construction can be retried", "statement": "If the constructor raises, a later ensure() for the same input runs it again (or raises) instead of blocking.", "quantifier": "every history with failing constructors", "why_tests_cant": "every history / failure point", "anchors": ["elsie/utils/cache.py:FsCache.ensure"]}
{"id": "C73", "title": "Pruning keeps what was used, and the cache stays usable", "statement": "remove_unused deletes exactly the known files that were not touched; afterwards every later ensure/get still yields an existing file, and pruning again does not fail.", "quantifier": "every history of cache operations", "why_tests_cant": "every history", "anchors": ["elsie/utils/cache.py:FsCache.remove_unused"]}
{"id": "C74", "title": "A crash never leaves a bad cache entry", "statement": "If the process dies at any point, the next session never uses an incompletely written file or fails because of one.", "quantifier": "every crash point", "why_tests_cant": "every crash point", "anchors": ["elsie/utils/cache.py:FsCache.ensure", "elsie/render/backends/svg/backend.py:InkscapeBackend._save_query_cache"]}
{"id": "C75", "title": "Cached measurements are those of the running Inkscape", "statement": "process_query always returns the value the current Inkscape version gives for that query, across any sequence of sessions, versions, prunes and saves.", "quantifier": "every history of sessions", "why_tests_cant": "every history", "anchors": ["elsie/render/backends/svg/backend.py:InkscapeBackend.process_query", "elsie/render/backends/svg/backend.py:InkscapeBackend._load_query_cache"]}
{"id": "C76", "title": "Rendering saves the measurements it used", "statement": "After render() with default options the saved query cache contains every query used by the deck.", "quantifier": "every history of text creation and renders", "why_tests_cant": "every history", "anchors": ["elsie/render/backends/svg/backend.py:InkscapeBackend.prune_cache", "elsie/render/backends/svg/backend.py:InkscapeBackend.save_cache"]}
{"id": "C77", "title": "Different inputs never share a cache file", "statement": "Within a session, two (input, type) pairs share a cache file only if they are equal (assuming an injective hash).", "quantifier": "every pair of inputs and types", "why_tests_cant": "ranges over unboundedly many inputs; a test can only sample literals", "anchors": ["elsie/utils/cache.py:FsCache._get_filename"]}
{"id": "C78", "title": "List counters", "statement": "The k-th item of an ordered (sub)list is labelled with the counters its parent list had when the sublist was created (or the given level), followed by start+k-1.", "quantifier": "every history of item/ol/ul calls on a family of lists", "why_tests_cant": "every history", "anchors": ["elsie/ext/list.py:ListBuilder"]}
{"id": "C79", "title": "List indentation", "statement": "A sublist nested k levels deep with indent d is indented by d per level.", "quantifier": "every nesting depth and indent", "why_tests_cant": "ranges over unboundedly many inputs; a test can only sample literals", "anchors": ["elsie/ext/list.py:ListBuilder._create_box", "elsie/ext/list.py:ListBuilder._create_sublist"]}
{"id": "C80", "title": "Markdown emphasis becomes inline styles", "statement": "For inline markdown free of delimiter characters, emphasis, strong emphasis and links at any nesting become exactly the corresponding inline styles around the same text.", "quantifier": "every inline tree", "why_tests_cant": "ranges over unboundedly many inputs; a test can only sample literals", "anchors": ["elsie/ext/markdown.py:get_raw_text", "elsie/ext/markdown.py:MarkdownContext.wrap_text_with_style"]}
{"id": "C81", "title": "Notebook navigation stays in range", "statement": "Clicking previous/next any number of times keeps the shown fragment between 1 and the number of fragments, moving by one when possible.", "quantifier": "every click sequence and fragment count", "why_tests_cant": "every history", "anchors": ["elsie/render/jupyter.py:get_javascript"]}
{"id": "C82", "title": "Renaming ids keeps references resolved", "statement": "After rename_ids every reference to an id of the document refers to the renamed id.", "quantifier": "every document", "why_tests_cant": "ranges over unboundedly many inputs; a test can only sample literals", "anchors": ["elsie/render/backends/svg/utils.py:rename_ids"]}
{"id": "C83", "title": "Inkscape replies are read exactly", "statement": "Reading up to the prompt returns exactly the reply and leaves the stream just after the prompt, and returns (or fails) if Inkscape exits.", "quantifier": "every reply and stream continuation", "why_tests_cant": "ranges over unboundedly many inputs; a test can only sample literals", "anchors": ["elsie/render/inkscape.py:InkscapeShell.wait_for_prompt"]}
{"id": "C84", "title": "Items do not influence each other (Cairo)", "statement": "With the Cairo backend an item is painted the same way whatever was painted before it on the page.", "quantifier": "every list of items drawn before, every item", "why_tests_cant": "every sequence of items", "anchors": ["elsie/render/backends/cairo/rcontext.py:CairoRenderingContext", "elsie/render/backends/cairo/shapes.py", "elsie/render/backends/cairo/draw.py"]}
{"id": "C85", "title": "Rounded corners are elliptical", "statement": "Every corner of a rounded rectangle drawn by the Cairo backend is (an approximation of) a quarter of the ellipse with the given radii, as in the SVG backend.", "quantifier": "every rectangle, radii and point of a corner", "why_tests_cant": "ranges over unboundedly many inputs; a test can only sample literals", "anchors": ["elsie/render/backends/cairo/draw.py:rounded_rectangle"]}
{"id": "C86", "title": "Ellipses fill their rectangle", "statement": "With the Cairo backend box.ellipse paints exactly the ellipse inscribed in the rectangle, and its border has the same width everywhere.", "quantifier": "every rectangle, transformation and paint", "why_tests_cant": "ranges over unboundedly many inputs; a test can only sample literals", "anchors": ["elsie/render/backends/cairo/rcontext.py:CairoRenderingContext.draw_ellipse", "elsie/render/backends/cairo/draw.py:fill_stroke_shape"]}
{"id": "C87", "title": "Arrow heads", "statement": "The tip of an arrow head is the end of its line; both sides have the given size and make the given angle with the line; the inner point is on the line; the line is shortened to end inside the head and only its end points move.", "quantifier": "every line, size and angle (real arithmetic)", "why_tests_cant": "ranges over unboundedly many inputs; a test can only sample literals", "anchors": ["elsie/shapes/arrow.py:Arrow.render", "elsie/shapes/arrow.py:Arrow.move_end_point", "elsie/boxtree/boxmixin.py:BoxMixin.line"]}
{"id": "C88", "title": "Arrows at the end of a path follow the path", "statement": "The end arrow of box.path is at the end of the path and points in the direction of the curve there.", "quantifier": "every path", "why_tests_cant": "ranges over unboundedly many inputs; a test can only sample literals", "anchors": ["elsie/shapes/path.py:path_points_for_end_arrow", "elsie/boxtree/boxmixin.py:BoxMixin.path"]}
{"id": "C89", "title": "Accepted paths can be drawn", "statement": "Path commands accepted when the path is created are known commands with the right numbers of points, and can be drawn.", "quantifier": "every list of commands", "why_tests_cant": "ranges over unboundedly many inputs; a test can only sample literals", "anchors": ["elsie/shapes/path.py:check_and_unpack_path_commands", "elsie/render/backends/cairo/shapes.py:draw_path"]}
{"id": "C90", "title": "Cached files are right", "statement": "Across any sequence of sessions with any versions, requests and prunings, the contents a request gets are those its own constructor, in the version of its session, would write for its input.", "quantifier": "every sequence of sessions", "why_tests_cant": "every history", "anchors": ["elsie/utils/cache.py:FsCache.ensure", "elsie/utils/cache.py:FsCache.get", "elsie/utils/cache.py:FsCache._get_filename"]}
{"id": "C91", "title": "Box arguments of list items", "statement": "Each argument of the box of a list item is the one given to item(), else the one of the nearest enclosing list that has it, and show is last+ if nobody sets it.", "quantifier": "every history of item/ol/ul calls with box arguments", "why_tests_cant": "every history", "anchors": ["elsie/ext/list.py:ListBuilder.item", "elsie/ext/list.py:ListBuilder._create_sublist", "elsie/ext/list.py:ListBuilder._create_box"]}
{"id": "C92", "title": "Markdown shows its text", "statement": "All text of a Markdown paragraph is shown: what a reader sees is the text of the paragraph without its Markdown markup.", "quantifier": "every inline tree", "why_tests_cant": "ranges over unboundedly many inputs; a test can only sample literals", "anchors": ["elsie/ext/markdown.py:get_raw_text", "elsie/ext/markdown.py:build_text"]}
{"id": "C93", "title": "Commands to Inkscape get their own answers", "statement": "If no line of a reply looks like a prompt, every command of a sequence returns the last line of its own reply, whatever warnings precede it.", "quantifier": "every sequence of replies", "why_tests_cant": "ranges over unboundedly many inputs; a test can only sample literals", "anchors": ["elsie/render/inkscape.py:InkscapeShell.run_command"]}
{"id": "C94", "title": "LaTeX snippets do not share ids", "statement": "Two different LaTeX snippets on a slide have no SVG id in common, and different ids of a snippet stay different.", "quantifier": "every pair of snippets and converted documents", "why_tests_cant": "ranges over unboundedly many inputs; a test can only sample literals", "anchors": ["elsie/ext/latex.py:_render_latex", "elsie/render/backends/svg/utils.py:rename_ids"]}
{"id": "C95", "title": "SVG images have the size they declare", "statement": "An image whose width is given in any absolute CSS unit is laid out with that width (96 pixels per inch).", "quantifier": "every number and unit", "why_tests_cant": "ranges over unboundedly many inputs; a test can only sample literals", "anchors": ["elsie/render/backends/svg/utils.py:svg_size_to_pixels"]}
{"id": "C96", "title": "SVG pages show the shapes that were asked for", "statement": "A page rendered with the SVG backend is a well-formed document in which an SVG reader finds exactly the shapes, paths and bitmaps drawn, in their order, each with its position, size, corner radii, rotation, colours, outline width and dash pattern, and with the size and view box of the slide.", "quantifier": "every list of items, every slide size and view box, every way of writing numbers that can be read back", "why_tests_cant": "ranges over unboundedly many inputs; a test can only sample literals", "anchors": ["elsie/render/backends/svg/draw.py:draw_rect", "elsie/render/backends/svg/draw.py:draw_path", "elsie/render/backends/svg/rcontext.py:SvgRenderingContext"]}
{"id": "C97", "title": "Both backends draw the same shapes", "statement": "A rectangle, ellipse, polygon, line, path or bitmap drawn with the Cairo backend has the same position, rotation, size, corners, colours, outline width and dash pattern as what an SVG reader sees on the page of the SVG backend.", "quantifier": "every item and every page transformation", "why_tests_cant": "ranges over unboundedly many inputs; a test can only sample literals", "anchors": ["elsie/render/backends/cairo/rcontext.py:CairoRenderingContext", "elsie/render/backends/cairo/draw.py:stroke_shape", "elsie/render/backends/svg/draw.py:draw_rect"]}
{"id": "C98", "title": "Documented name policies", "statement": "The values accepted as name_policy are \"auto\", \"ignore\", \"replace\" and \"unique\", and each has the documented effect; \"auto\" is \"replace\" inside Jupyter and \"unique\" otherwise.", "quantifier": "every value, inside and outside Jupyter", "why_tests_cant": "every string", "anchors": ["elsie/slides/slidedeck.py:SlideDeck.__init__"]}
{"id": "C99", "title": "Texts and images fit into their boxes", "statement": "A text (not scaled to a given size), or an image in a box of which no size was given, fits into the area of its box inside the paddings, whatever else is put on the slide before and after.", "quantifier": "every history of calls on a slide, every box and every text or image in it", "why_tests_cant": "ranges over unboundedly many inputs; a test can only sample literals", "anchors": ["elsie/boxtree/layout.py:Layout.ensure_width", "elsie/boxtree/layout.py:Layout.set_image_size_request", "elsie/text/textboxitem.py:TextBoxItem._make_query"]}
{"id": "C100", "title": "Images in boxes with a given size", "statement": "An image without explicit scale in a box whose width or height was given is drawn inside its box, with its aspect ratio, and is at least as wide or high as given (less the paddings).", "quantifier": "every history of calls on a slide, every box with a given width or height, every image", "why_tests_cant": "ranges over unboundedly many inputs; a test can only sample literals", "anchors": ["elsie/boxtree/layout.py:Layout.set_image_size_request", "elsie/boxtree/boxmixin.py:scaler"]}
{"id": "C101", "title": "Texts are completed by the default style", "statement": "get_style(x) has exactly the attributes of the style x stands for; get_style(x, full_style=True) and text(..., style=x) have in addition the default style's value for every attribute that x leaves unspecified, as both are at that moment in that box. Unknown names and other objects are rejected. Later changes of styles do not change the text.", "quantifier": "every history of style operations, every style argument", "why_tests_cant": "every history (aliasing of style objects)", "anchors": ["elsie/text/textstyle.py:compose_style", "elsie/text/stylecontainer.py:StyleContainer.get_style", "elsie/boxtree/boxmixin.py:BoxMixin.text"]}
{"id": "C102", "title": "Lines are drawn in their line boxes", "statement": "In an SVG page every line of a text is anchored at the left edge, the middle or the right edge of its box (as the alignment says), and its base line is the (scaled) font size below the top of line_box of that line; a rotated text is all this turned around the middle of the box. (First rendering; see C37 for later ones.)", "quantifier": "every rectangle, text that can be drawn (C58), style, alignment and rotation, with and without scale_to_fit", "why_tests_cant": "ranges over unboundedly many inputs; a test can only sample literals", "anchors": ["elsie/text/textboxitem.py:TextBoxItem.render", "elsie/text/textboxitem.py:text_x_in_rect", "elsie/render/backends/svg/rcontext.py:SvgRenderingContext.draw_text"]}
{"id": "C103", "title": "The right part of a text is measured", "statement": "When a text is made, Inkscape is asked for the width of a document in which exactly one element has the id asked for, the whole text. For inline_box(style, n) it is asked for the position and the width in a document that shows the line in which the n-th such section begins; exactly one element has the id asked for, and it shows the section up to the end of that line.", "quantifier": "every text, style table and style; for inline boxes every section, also one that goes over several lines", "why_tests_cant": "ranges over unboundedly many inputs; a test can only sample literals", "anchors": ["elsie/render/backends/svg/backend.py:InkscapeBackend._text_query", "elsie/render/backends/svg/query.py:compute_query", "elsie/text/textboxitem.py:TextBoxItem._text_box_helper", "elsie/text/textboxitem.py:TextBoxItem.inline_box"]}
{"id": "C104", "title": "Boxes placed by hand leave the others alone", "statement": "A box with an explicit position along the main axis of its parent (in particular every overlay), and everything put into it, has no influence on the rectangles of the other boxes: they are as if it had not been created.", "quantifier": "every history of calls on a slide, every such box to which no position or size of a box outside of it refers", "why_tests_cant": "ranges over unboundedly many inputs; a test can only sample literals", "anchors": ["elsie/boxtree/layout.py:Layout.is_managed", "elsie/boxtree/layout.py:Layout.set_rect", "elsie/boxtree/boxmixin.py:BoxMixin.overlay"]}
{"id": "C105", "title": "Sizes of boxes, fbox and sbox", "statement": "The size of a box is the given number or what its content needs, whichever is larger; for N% it is N% of the parent, but not less than what its content needs; fill across the main axis gives the whole parent. sbox spreads over its parent across the main axis, and fbox alone in its parent covers it exactly.", "quantifier": "every layout tree, every box without dynamic size", "why_tests_cant": "ranges over unboundedly many inputs; a test can only sample literals", "anchors": ["elsie/boxtree/value.py:SizeValue.compute", "elsie/boxtree/layout.py:Layout.set_rect", "elsie/boxtree/boxmixin.py:BoxMixin.fbox", "elsie/boxtree/boxmixin.py:BoxMixin.sbox"]}
{"id": "C106", "title": "What a page shows", "statement": "Page n of a slide shows exactly the items whose box is shown on page n, and a box is shown if its own show argument selects n (next and last refer to the pages the slide had when the box was created) and the box around it is shown. Items on smaller z-levels are painted first; on the same level they are painted in the order of a walk through the boxes, where the things in a box come in the order in which they were put into it with prepend, above and below taken into account.", "quantifier": "every history of calls on a slide, every page", "why_tests_cant": "ranges over unboundedly many inputs; a test can only sample literals", "anchors": ["elsie/boxtree/boxmixin.py:BoxMixin.box", "elsie/boxtree/boxitem.py:BoxItem", "elsie/boxtree/box.py:Box.get_painters", "elsie/render/backends/svg/backend.py:InkscapeBackend.create_render_unit", "elsie/slides/show.py:ShowInfo.is_visible"]}
{"id": "C107", "title": "Points of lines, polygons and paths", "statement": "In a point (x, y) given to a drawing method of a box, numbers count from the upper left corner of the box and position strings are relative to its size. box.p(x, y) is the point (x, y) of that box and box.mid_point() its middle, whichever box uses the point; .add(dx, dy) moves a point by exactly that. Everything is evaluated with the final rectangles of the boxes. A polygon takes any points, a line at least two; a command of a path is M, L, T, S, Q or C with a multiple of 1, 1, 1, 2, 2 or 3 points, anything else is refused by the call. Points keep their order.", "quantifier": "every point, every assignment of rectangles to boxes", "why_tests_cant": "ranges over unboundedly many inputs; a test can only sample literals", "anchors": ["elsie/boxtree/lazy.py:unpack_point", "elsie/boxtree/lazy.py:LazyPoint.add", "elsie/boxtree/layout.py:Layout.point", "elsie/boxtree/boxmixin.py:BoxMixin.mid_point"]}
{"id": "C108", "title": "From the calls to the SVG page", "statement": "The SVG page of a slide is well-formed and has the size and view box of the slide. On it are exactly the things drawn in the boxes that are shown on this page, each once and in painting order (C106): every rectangle and ellipse on the rectangle of its box, every line, polygon and path through its points (C107), every bitmap and SVG picture with its aspect ratio in the middle of its box, with colours, outline and rotation as given (an SVG picture is the document its image has on this page), and every text with its lines where C102 says. The boxes are laid out with the room that the drawn things take, and the slide has the pages that its boxes and pictures need. (For texts within C58 and shapes within C96.)", "quantifier": "every history of box and drawing calls on a slide, every page", "why_tests_cant": "ranges over unboundedly many inputs; a test can only sample literals", "anchors": ["elsie/render/backends/svg/backend.py:InkscapeBackend.create_render_unit", "elsie/boxtree/boxmixin.py:BoxMixin.rect", "elsie/boxtree/boxmixin.py:BoxMixin.line", "elsie/boxtree/boxmixin.py:BoxMixin.path", "elsie/boxtree/boxmixin.py:BoxMixin._image_bitmap", "elsie/boxtree/boxmixin.py:BoxMixin._image_svg", "elsie/render/backends/svg/rcontext.py:SvgRenderingContext.draw_svg", "elsie/shapes/path.py:check_and_unpack_path_commands"]}
{"id": "C109", "title": "Further calls leave what was there", "statement": "Whatever is called on a slide later, a page shows of the things created before exactly those it showed before, on the same z-levels and in the same order. No page is lost.", "quantifier": "every history of calls on a slide and every continuation of it, every page", "why_tests_cant": "ranges over unboundedly many inputs; a test can only sample literals", "anchors": ["elsie/boxtree/boxmixin.py:BoxMixin.box", "elsie/boxtree/box.py:Box.add_child", "elsie/boxtree/box.py:Box.get_painters", "elsie/slides/slide.py:Slide.steps"]}
{"id": "C110", "title": "Slides can be scaled", "statement": "When the size of a slide and all lengths (positions and sizes given as numbers, paddings, sizes of texts and pictures) are multiplied by the same positive number, the same boxes and items come about and every rectangle is multiplied by this number. Percentages, fill and references to other boxes stay as they are.", "quantifier": "every history of calls on a slide, every positive factor", "why_tests_cant": "ranges over unboundedly many inputs; a test can only sample literals", "anchors": ["elsie/boxtree/layout.py:Layout.set_rect", "elsie/boxtree/layout.py:Layout.compute_size_request", "elsie/boxtree/layout.py:Layout.set_image_size_request", "elsie/boxtree/value.py:SizeValue.compute", "elsie/boxtree/value.py:PosValue.compute"]}
{"id": "C111", "title": "Rows are columns with the axes exchanged", "statement": "A row (horizontal=True) lays out its children as a column does with the axes exchanged: when x and y, width and height, left and top and rows and columns are exchanged everywhere, every rectangle has its axes exchanged.", "quantifier": "every history of calls inside a box that covers the slide", "why_tests_cant": "ranges over unboundedly many inputs; a test can only sample literals", "anchors": ["elsie/boxtree/layout.py:Layout.set_rect", "elsie/boxtree/layout.py:Layout.min_children_size", "elsie/boxtree/layout.py:Layout.is_managed"]}
{"id": "C112", "title": "Pages made with Cairo show what was drawn", "statement": "A PDF or PNG page made by the Cairo backend shows exactly what was drawn in the boxes that are on this page, in the order of the boxes and levels: every shape and picture where its box and its points are, with its colours, outline and rotation, every text with its characters and styles and its first base line where the SVG page has it, and of every SVG picture the document of this page over its rectangle; all this at the resolution of the page and seen through the view box of the slide.", "quantifier": "every history of calls, every page, PDF and PNG, with and without a view box", "why_tests_cant": "ranges over unboundedly many inputs; a test can only sample literals", "anchors": ["elsie/render/backends/cairo/backend.py:CairoBackend.create_render_unit", "elsie/render/backends/cairo/rcontext.py:CairoRenderingContext", "elsie/render/backends/cairo/text.py:build_layout", "elsie/render/backends/cairo/svg.py:CairoSurface", "elsie/boxtree/boxmixin.py:BoxMixin"]}
{"id": "C113", "title": "The slide is the page", "statement": "The box of a slide is exactly the page, whatever it contains, so for boxes directly in the slide positions and sizes mean the page: numbers are distances from its edges, percentages are fractions of it, [P%] divides its free room, fill in width is its width, and boxes without x are centred.", "quantifier": "every history of calls on a slide of any size", "why_tests_cant": "ranges over unboundedly many inputs; a test can only sample literals", "anchors": ["elsie/slides/slide.py:Slide.prepare", "elsie/slides/slide.py:Slide.__init__", "elsie/boxtree/layout.py:Layout.set_rect"]}
{"id": "C114", "title": "Backgrounds", "statement": "A slide with a background colour (the one given to new_slide, otherwise that of the deck; an empty string means none) has on all its pages, below everything else, a rectangle of the size of the page filled with this colour and without outline. (As long as no z-level of -1000000 or less is used on the slide.)", "quantifier": "every deck, every interleaving of calls on its slides, every page; both backends", "why_tests_cant": "ranges over unboundedly many inputs; a test can only sample literals", "anchors": ["elsie/slides/slidedeck.py:SlideDeck.new_slide", "elsie/boxtree/boxmixin.py:BoxMixin.rect", "elsie/boxtree/box.py:Box.get_painters"]}
{"id": "C115", "title": "From the calls to the pages of the deck", "statement": "Slides and PDFs can be added and slides can be drawn on in any order. What is rendered then is every slide of the deck (C48) with all its pages (C21) and every PDF, in the order of the deck and each once; and every page shows what was drawn on its own slide (C108, with Cairo C112), in the size of the deck and with the view box of that slide, whatever was drawn on the other slides.", "quantifier": "every sequence of calls, both backends", "why_tests_cant": "ranges over unboundedly many inputs; a test can only sample literals", "anchors": ["elsie/slides/slidedeck.py:SlideDeck.render", "elsie/slides/slidedeck.py:SlideDeck.new_slide", "elsie/slides/slidedeck.py:SlideDeck.add_pdf", "elsie/slides/slide.py:Slide.prepare", "elsie/render/backends/svg/backend.py:InkscapeBackend.create_render_unit", "elsie/render/backends/cairo/backend.py:CairoBackend.create_render_unit"]}
{"id": "C116", "title": "Documents with several pages", "statement": "With slides_per_page and Inkscape, every document that is rendered is well-formed SVG as large as the grid and contains exactly its share of the pages of the deck (C115): each of them complete, moved to its row and column. There are as few documents as possible, and a grid of one cell changes nothing.", "quantifier": "every sequence of calls on a deck, every grid", "why_tests_cant": "ranges over unboundedly many inputs; a test can only sample literals", "anchors": ["elsie/render/render.py:per_page_grouping", "elsie/slides/slidedeck.py:SlideDeck.render", "elsie/render/backends/svg/utils.py:svg_begin", "elsie/utils/sxml.py:Xml.raw_text"]}
{"id": "C117", "title": "render() delivers all pages", "statement": "With Inkscape, render() exports every page (or grid) of the deck once and in order. Each file holds what Inkscape makes of its own page, whatever was in the cache; embedded PDFs are used as they are. For other types than PDF, or without a merger, the files are returned in this order and are not pruned; otherwise they are merged in this order into the output. render() can be called again in the same session.", "quantifier": "every deck, every session, every contents of the cache directory", "why_tests_cant": "ranges over unboundedly many inputs; a test can only sample literals", "anchors": ["elsie/slides/slidedeck.py:SlideDeck.render", "elsie/render/render.py:SvgRenderUnit.export", "elsie/render/render.py:ExportedRenderUnit.export", "elsie/render/pdfmerge.py:get_pdf_merger_by_name", "elsie/render/pdfmerge.py:ExternalMerger.write", "elsie/utils/cache.py:FsCache.ensure", "elsie/utils/cache.py:FsCache.remove_unused"]}
{"id": "C118", "title": "A presentation shows the pages of the deck", "statement": "export_pptx() makes a presentation with one slide per page of the deck (or per grid), in order. Each slide is blank apart from the picture of its own page, which covers the slide and keeps the proportions of the page. Without a blank layout it raises before anything is rendered.", "quantifier": "every deck, every session, every template", "why_tests_cant": "ranges over unboundedly many inputs; a test can only sample literals", "anchors": ["elsie/ext/export.py:export_pptx", "elsie/slides/slidedeck.py:SlideDeck.render"]}
{"id": "C119", "title": "Markdown is shown in its order", "statement": "markdown() shows all blocks of a document: there is one text for every heading, paragraph, empty line, fenced code and label of a list item, it shows what the source says in the style for this kind of block, it is in as many quotations as in the source, and comes before everything that follows in the source.", "quantifier": "every document of headings, paragraphs, quotations, fenced code and lists, nested in any way", "why_tests_cant": "ranges over unboundedly many inputs; a test can only sample literals", "anchors": ["elsie/ext/markdown.py:build_children", "elsie/ext/markdown.py:build_list_top", "elsie/ext/markdown.py:build_quote", "elsie/ext/markdown.py:build_text", "elsie/ext/list.py:ListBuilder.item", "elsie/ext/list.py:ListBuilder.ul", "elsie/ext/list.py:ListBuilder.ol"]}
{"id": "C120", "title": "Boxes of lines and sections are where the text is", "statement": "The box that line_box(i, n) of a text creates covers exactly the rows i to i + n - 1 of the text as it is drawn (one pixel more at the bottom) over the whole width of the box of the text; the box that inline_box(name, k) creates covers the row in which the k-th section with this name begins, from the measured beginning of the section on, as wide as the measured section. This also holds for texts that are scaled to their box.", "quantifier": "every sequence of calls on the boxes and texts of a slide, and every text, scaled or not", "why_tests_cant": "ranges over unboundedly many inputs; a test can only sample literals", "anchors": ["elsie/text/textboxitem.py:TextBoxItem.line_box", "elsie/text/textboxitem.py:TextBoxItem.inline_box", "elsie/text/textboxitem.py:TextBoxItem._text_box_helper", "elsie/boxtree/layout.py:Layout.set_rect"]}
{"id": "C121", "title": "A text style holds only allowed values", "statement": "Assigning an attribute of a TextStyle, or giving it to the constructor, is accepted exactly if the value is allowed: a string for font and color, a number for size, line_spacing, opacity and priority, a truth value for bold and italic, one of the documented names for align and variant_numeric; None for all but the priority. Other attributes and other values raise an exception. An accepted value can be read back and changes no other attribute. Whatever a program does with styles, all attributes of all styles have allowed values; the opacity is between 0 and 1.", "quantifier": "every program that creates, changes, copies, updates and composes styles, with values of any type", "why_tests_cant": "ranges over unboundedly many inputs; a test can only sample literals", "anchors": ["elsie/text/textstyle.py:TextStyle", "elsie/text/textstyle.py:_check_string", "elsie/text/textstyle.py:_check_number", "elsie/text/textstyle.py:_check_bool", "elsie/text/textstyle.py:_check_choice"]}
{"id": "C122", "title": "Pages with debug_boxes show the pages and a frame for every box", "statement": "With debug_boxes=True every SVG page is well-formed XML that shows what the page shows without debug_boxes, in the same order, and besides exactly one frame for the slide and for every box that is on the page: an outline of the box (at least a tenth of a pixel wide and high; continuous or dashed depending on how deep the box is) and a label with the name of the box and its size, beginning in the upper or lower left corner. Frames are sorted with everything else by z_level; on the same level the frame of a box is above what is in the box.", "quantifier": "all sequences of box and drawing calls, all pages, names and styles of boxes", "why_tests_cant": "ranges over unboundedly many inputs; a test can only sample literals", "anchors": ["elsie/boxtree/box.py:Box.get_painters", "elsie/boxtree/box.py:Box._debug_paint", "elsie/slides/slide.py:Slide.make_render_unit", "elsie/render/backends/svg/backend.py:SvgBackend.create_render_unit"]}
{"id": "C123", "title": "Styles of Markdown documents", "statement": "When markdown() puts a document into a box, every text of the document has the default style of the box, with the quotation style over it inside quotations, and over that the style for what it is (heading of its level, paragraph, code); bold, italic and linked sections have the styles with those names. If the box has a style under the documented name (md-paragraph, md-bold, md-italic, md-link, md-blockquote, md-heading-1 to md-heading-6, code) it is this one, otherwise the predefined one. Styles of boxes and texts that were there before do not change.", "quantifier": "all reachable states of styles, all boxes and all documents that markdown() accepts", "why_tests_cant": "ranges over unboundedly many inputs; a test can only sample literals", "anchors": ["elsie/ext/markdown.py:create_root_md_box", "elsie/ext/markdown.py:build_quote", "elsie/ext/markdown.py:markdown", "elsie/text/stylecontainer.py:StyleContainer.update_style"]}
{"id": "C124", "title": "Boxes are where the calls say", "statement": "After any box(), text(), image() and drawing calls, if the slide can be laid out: every box made by box(x, y, width, height, horizontal, prepend, p_*) in a box P is, with its paddings and on each axis, at the place that its arguments say: x and y as numbers, percentages, alignments or values depending on other boxes (wherever these are in the end); in the middle of P across its direction if nothing is said; as wide and high as the number, percentage, fill or value depending on other boxes says, exactly if it is empty and at least otherwise. The boxes of P without a position along its direction are stacked without gaps in their order, centred together, or sharing the whole of P if some of them fill. (Relative y in a box with horizontal=True is left out here: C35.)", "quantifier": "all sequences of calls, all boxes at any depth, all documented arguments, all sizes of the slide", "why_tests_cant": "ranges over unboundedly many inputs; a test can only sample literals", "anchors": ["elsie/boxtree/boxmixin.py:BoxMixin.box", "elsie/boxtree/layout.py:Layout.set_rect", "elsie/boxtree/layout.py:Layout.add", "elsie/boxtree/value.py:SizeValue.parse", "elsie/boxtree/value.py:PosValue.parse", "elsie/boxtree/lazy.py:LazyValue.eval"]}
{"id": "C125", "title": "A picture shows what its file contains", "statement": "image(source) shows what the file contains when image() is called. The kind of the picture is image_type, or the extension of the file name; other calls are refused.", "quantifier": "all programs with one deck: calls of image() with file names, bytes and file objects, mixed with changes of the files", "why_tests_cant": "ranges over unboundedly many inputs; a test can only sample literals", "anchors": ["elsie/boxtree/boxmixin.py:BoxMixin.image", "elsie/boxtree/boxmixin.py:BoxMixin._image_bitmap", "elsie/boxtree/boxmixin.py:BoxMixin._image_ora", "elsie/boxtree/boxmixin.py:BoxMixin._image_svg", "elsie/utils/files.py:read_helper"]}
{"id": "C126", "title": "LaTeX formulas in their boxes", "statement": "latex(box, text, scale=s) shows the formula in the middle of the box, s times as large as LaTeX made it, with both backends; and the box has room for it.", "quantifier": "every formula, scale and box, every history of calls on the slide", "why_tests_cant": "ranges over unboundedly many inputs; a test can only sample literals", "anchors": ["elsie/ext/latex.py:latex", "elsie/ext/latex.py:_draw", "elsie/render/backends/svg/rcontext.py:SvgRenderingContext.draw_svg", "elsie/render/backends/cairo/rcontext.py:CairoRenderingContext.draw_svg"]}
{"id": "C127", "title": "Working on a slide after it was shown", "statement": "A slide can be shown (rendered, or displayed in a notebook) between the calls that build it: what a page shows depends only on the calls, not on whether and when the slide was shown before.", "quantifier": "every sequence of calls, successful or not, with the slide shown any number of times in between; both backends", "why_tests_cant": "ranges over unboundedly many inputs; a test can only sample literals", "anchors": ["elsie/slides/slide.py:Slide.prepare", "elsie/boxtree/layout.py:Layout.set_rect", "elsie/text/textboxitem.py:TextBoxItem.__init__", "elsie/slides/slidedeck.py:SlideDeck.render"]}
{"id": "C128", "title": "A deck made in the cells of a notebook", "statement": "With slides made by the decorator slide() in the cells of a notebook, where names are replaced: after running cells in any order and any number of times the deck has one slide per name, from the last run with this name, in the order of these runs; it is rendered as if only these runs had been made; a run whose function raises leaves the deck as it was; and below a cell exactly the pages of its slide are shown.", "quantifier": "every sequence of runs of cells, whose functions make any calls on their slide and may raise anywhere; any backend", "why_tests_cant": "ranges over unboundedly many inputs; a test can only sample literals", "anchors": ["elsie/slides/slidedeck.py:SlideDeck.slide", "elsie/slides/slidedeck.py:SlideDeck._apply_name_policy", "elsie/slides/slidedeck.py:SlideDeck.new_slide", "elsie/render/jupyter.py:get_slide_repr_steps"]}
{"id": "C129", "title": "Highlighted code has the colours of its theme", "statement": "box.code(language, text) on a deck with a pygments theme draws, with either backend, every character of the code in the style of the code, changed exactly by the colour, bold and italic that the theme gives to the token the character belongs to.", "quantifier": "every code, every lexer (any tokens, any token types), every theme, every style of the code with priority 0", "why_tests_cant": "ranges over unboundedly many inputs; a test can only sample literals", "anchors": ["elsie/text/highlight.py:make_highlight_styles", "elsie/text/highlight.py:MyFormatter.format", "elsie/slides/slidedeck.py:SlideDeck.__init__", "elsie/boxtree/boxmixin.py:BoxMixin.code", "elsie/render/backends/cairo/text.py:get_text_and_attributes", "elsie/render/backends/svg/draw.py:draw_text"]}
{"id": "C130", "title": "Styles in highlighted code win over the theme", "statement": "In box.code(language, text, use_styles=True) a character inside an inline style of the user has everything this style sets; characters outside, or inside a marker ~#name{...} only, have the colours of the theme.", "quantifier": "every code, lexer, theme, and inline styles that are not nested", "why_tests_cant": "ranges over unboundedly many inputs; a test can only sample literals", "anchors": ["elsie/text/textparser.py:tokens_merge", "elsie/text/textparser.py:_tokens_merge_helper", "elsie/boxtree/boxmixin.py:BoxMixin.code", "elsie/render/backends/cairo/text.py:get_text_and_attributes"]}
{"id": "C131", "title": "With Cairo an inline box is around its section", "statement": "With the Cairo backend the box made by text.inline_box(name, n_th) has the left edge and the width of the characters that the n_th section `name` has in the line in which it begins, as they are drawn: for every alignment, scale and position of the text and whatever is before and behind the section.", "quantifier": "every text, every section that has characters in its first line, every table of styles, every font without kerning, every rectangle and scale", "why_tests_cant": "ranges over unboundedly many inputs; a test can only sample literals", "anchors": ["elsie/render/backends/cairo/text.py:compute_subtext_extents", "elsie/render/backends/cairo/text.py:get_byte_range", "elsie/render/backends/cairo/rcontext.py:CairoRenderingContext.compute_subtext_extents", "elsie/render/backends/cairo/rcontext.py:CairoRenderingContext.draw_text", "elsie/text/textboxitem.py:TextBoxItem.inline_box", "elsie/text/textboxitem.py:TextBoxItem._text_box_helper", "elsie/text/textparser.py:extract_line"]}
{"id": "C132", "title": "With Cairo a view box only moves and zooms", "statement": "With the Cairo backend a page of a slide with a view box is the page of the same slide without it, moved and zoomed as a whole: every shape, outline, text and picture. If one of them cannot be made, neither can the other one.", "quantifier": "every sequence of calls on a slide, every page, every view box with positive width and height, every page size, PDF and PNG", "why_tests_cant": "ranges over unboundedly many inputs; a test can only sample literals", "anchors": ["elsie/render/backends/cairo/draw.py:apply_viewbox", "elsie/render/backends/cairo/rcontext.py:CairoRenderingContext.__init__", "elsie/render/backends/cairo/rcontext.py:CairoRenderingContext.draw_text", "elsie/render/backends/cairo/rcontext.py:CairoRenderingContext.draw_svg", "elsie/render/backends/cairo/text.py:build_layout", "elsie/render/backends/cairo/shapes.py:draw_path"]}
{"id": "C133", "title": "The rows of a text are apart as reserved, with Cairo", "statement": "With the Cairo backend the base lines of the rows of a text are line_spacing * size apart, scaled with the text: as on an SVG page and as reserved in the layout.", "quantifier": "every text on every page, every style, every scale to fit and every view box, every font (as measured by Pango)", "why_tests_cant": "ranges over unboundedly many inputs; a test can only sample literals", "anchors": ["elsie/render/backends/cairo/text.py:build_layout", "elsie/render/backends/cairo/text.py:get_text_height", "elsie/render/backends/cairo/rcontext.py:CairoRenderingContext.draw_text", "elsie/text/textboxitem.py:TextBoxItem.render"]}
{"id": "C134", "title": "Measured texts are not measured again", "statement": "Once Inkscape has measured a text, it is not asked for this measurement again: neither in this process nor in the next one with the same versions of Elsie and Inkscape after a render that saved the measurements.", "quantifier": "every history of sessions, measurements, prunings and saves", "why_tests_cant": "ranges over unboundedly many inputs; a test can only sample literals", "anchors": ["elsie/render/backends/svg/backend.py:InkscapeBackend.process_query", "elsie/render/backends/svg/backend.py:InkscapeBackend._load_query_cache", "elsie/render/backends/svg/backend.py:InkscapeBackend._save_query_cache", "elsie/render/backends/svg/backend.py:InkscapeBackend.prune_cache", "elsie/slides/slidedeck.py:SlideDeck.render"]}
{"id": "C135", "title": "update_style is a shortcut", "statement": "`box.update_style(name, TextStyle(...))` is the same as getting the style by its name, assigning the given attributes to it and setting it under the same name: it succeeds in the same cases, and afterwards every box resolves every name to the same style and every text is drawn with the same styles.", "quantifier": "every deck reached by operations on styles, boxes and texts, every box, name and set of given attributes, every way of assigning them", "why_tests_cant": "ranges over unboundedly many inputs; a test can only sample literals", "anchors": ["elsie/text/stylecontainer.py:StyleContainer.update_style", "elsie/text/stylecontainer.py:StyleContainer.get_style", "elsie/text/stylecontainer.py:StyleContainer.set_style", "elsie/text/textstyle.py:TextStyle.update"]}
{"id": "C136", "title": "Colours mean in Cairo what they mean in SVG", "statement": "A colour given as a keyword, as a hexadecimal value, as `rgb(...)` or as `hsl(...)` (the four forms of the user guide) is painted by the Cairo backend, in shapes and in texts, as the colour and opacity that it denotes in SVG.", "quantifier": "every string, every table of keywords that agrees with the one of SVG", "why_tests_cant": "ranges over unboundedly many inputs; a test can only sample literals", "anchors": ["elsie/render/backends/cairo/utils.py:get_rgb_color", "elsie/render/backends/cairo/utils.py:normalize_color", "elsie/render/backends/cairo/text.py:to_pango_color", "docs/userguide/text.md"]}
{"id": "C137", "title": "Postprocessing adds to the slides and changes nothing else", "statement": "`render(slide_postprocessing=f)` calls `f` with the list of the boxes of the slides; afterwards every page of the slide at place `k` shows what was drawn on it before and then what `f` drew on the box at place `k`, and the slides and their order stay. In particular the page numbers of the cookbook are on every page, 90% of the page from its corner, and move nothing else.", "quantifier": "every history of calls on a deck and its slides, every function that makes calls on each slide according to its place, both backends", "why_tests_cant": "ranges over unboundedly many inputs; a test can only sample literals", "anchors": ["elsie/slides/slidedeck.py:SlideDeck.render", "elsie/slides/slide.py:Slide.box", "docs/cookbook/postprocessing.md"]}
{"id": "C138", "title": "Dummy styles have no visual effect", "statement": "A text with sections `~#name{\u2026}` looks as the text without them: it has the same characters, lines and distances of lines, and every character has the same font, size, colour, weight and slant; if the one is drawn, so is the other.", "quantifier": "every text with styles properly nested, every table of styles in which no style is named `#\u2026`, every style of the text, both backends", "why_tests_cant": "ranges over unboundedly many inputs; a test can only sample literals", "anchors": ["elsie/render/backends/svg/draw.py:draw_text", "elsie/render/backends/cairo/text.py:get_text_and_attributes", "docs/userguide/syntax_highlighting.md"]}
{"id": "C139", "title": "Boxes are as large as they need to be", "statement": "A box that neither fills nor depends on other boxes is exactly as large, with its paddings, as it needs, or as its percentage of the parent says, if that is more. It needs the size its argument asks for or, if that is more, what is inside with the paddings: the texts and images put into it, and its stacked boxes, whose needs add up along its direction, while across it the largest counts. Boxes placed by hand and drawings need no room.", "quantifier": "every sequence of calls on a slide that succeeds and whose rectangles can be computed, every box, both axes; images only in boxes without a size (the others are C100)", "why_tests_cant": "ranges over unboundedly many inputs; a test can only sample literals", "anchors": ["elsie/boxtree/layout.py:compute_size_request", "elsie/boxtree/layout.py:ensure_width", "elsie/boxtree/layout.py:set_image_size_request", "elsie/text/textboxitem.py:TextBoxItem", "docs/userguide/layout.md"]}
{"id": "C140", "title": "Code shown step by step stays in place", "statement": "With the recipe `code_step` of the cookbook every step shows, at every place, the line that was asked for or nothing; lines that are seen in several steps do not move.", "quantifier": "every code without tabs and carriage returns, every list of steps that name lines of the code and have as many places, every lexer that honours its contract, every style and box", "why_tests_cant": "ranges over unboundedly many inputs; a test can only sample literals", "anchors": ["docs/cookbook/codestepping.md", "elsie/boxtree/boxmixin.py:code", "elsie/text/highlight.py:highlight_code", "elsie/text/textboxitem.py:render"]}
{"id": "C141", "title": "Grids are regular", "statement": "The programs of the cookbook's page on grids do what the page says: all cells have the same size, the cells of a row and of a column are aligned and equally far apart, and the grid is in the middle of its box; with `show=f'{fragment}+'` the cells appear one after the other, row by row, without moving.", "quantifier": "every number of rows and columns, every size of the cells and of the gaps that are not negative, every box the grid is in, every text that fits into its cell, every page", "why_tests_cant": "ranges over unboundedly many inputs; a test can only sample literals", "anchors": ["docs/cookbook/grids.md", "elsie/boxtree/boxmixin.py:box", "elsie/boxtree/layout.py:compute_size_request", "elsie/boxtree/layout.py:set_rect", "elsie/boxtree/box.py:get_painters"]}
{"id": "C142", "title": "Headers leave the rest of the page", "statement": "On a slide made with `init_slide` of the cookbook the header is at the top, as wide as the page and as high as asked for (or as its text needs), its text is at the left in the middle of the header, and the box that is returned is exactly the rest of the page, whatever is put into it.", "quantifier": "every size of the page, every percentage that is not 0, every distance and padding that is not negative, every text in the header, all calls on the box that is returned", "why_tests_cant": "ranges over unboundedly many inputs; a test can only sample literals", "anchors": ["docs/cookbook/headers.md", "elsie/boxtree/boxmixin.py:box", "elsie/boxtree/boxmixin.py:fbox", "elsie/boxtree/layout.py:compute_size_request", "elsie/boxtree/layout.py:set_rect"]}
{"id": "C143", "title": "Placeholders fill their box and show the name", "statement": "`todo_placeholder(box, name)` shows `TODO` and below it the name that was given, or otherwise the name of the box, and its two frames are 3 and 23 inside of the box, however long the name is.", "quantifier": "every name, every box with or without a name in which no other box is stacked, all calls before and after, every measured size of the text", "why_tests_cant": "ranges over unboundedly many inputs; a test can only sample literals", "anchors": ["elsie/ext/todo.py:todo_placeholder", "elsie/boxtree/boxmixin.py:fbox", "elsie/boxtree/boxmixin.py:text"]}
{"id": "C144", "title": "Which calls are accepted, and which slides can be laid out", "statement": "A sequence of calls raises no exception if and only if each call is on a box that exists, positions and sizes are of the documented forms, selectors are legal on a slide with the pages made so far, and `above` or `below` name something in the same box. After that the slide can be laid out if and only if every dynamic value refers only to boxes that are laid out before its own box; without dynamic values it always can.", "quantifier": "every sequence of calls of `box`, `overlay`, `text` and of drawing items on a slide, all arguments, every size of the page", "why_tests_cant": "ranges over unboundedly many inputs; a test can only sample literals", "anchors": ["elsie/boxtree/boxmixin.py:box", "elsie/boxtree/box.py:add_child", "elsie/boxtree/layout.py:set_rect", "elsie/boxtree/value.py:parse", "elsie/boxtree/layout.py:x", "elsie/boxtree/lazy.py:eval", "elsie/slides/show.py:parse"]}
{"id": "C145", "title": "Boxes are revealed in the order of the source", "statement": "With `next`, `next+`, `last` and `last+` boxes are revealed in the order of the source: the slide has one page more than there are calls with `next`, and a box is on the page of its fragment (with `+` from it on) if the box around it is. If only `next+` and `last+` are used, every item appears on one page and stays, in whatever boxes it is, and a page that shows a box shows all boxes with a selector before it in the source. If all selectors are open, no page loses anything that the page before it shows, and the order of painting stays the same.", "quantifier": "every sequence of calls on a slide whose boxes use these selectors, nested in any way; for the last sentence every open selector and pictures with fragments", "why_tests_cant": "ranges over unboundedly many inputs; a test can only sample literals", "anchors": ["elsie/slides/show.py:parse", "elsie/slides/show.py:is_visible", "elsie/boxtree/boxmixin.py:box", "elsie/slides/slide.py:current_fragment", "elsie/boxtree/box.py:get_painters"]}
{"id": "C146", "title": "Calls on items are calls on their box", "statement": "Calling `box`, `text`, `rect`, `image` and the like on an item does the same as calling it on the box in which the item is, however long the chain of calls is, and dynamic values made with `x`, `y` or `p` on an item belong to its box. A program makes a slide if and only if the program with all calls on boxes makes the same slide; in particular the two snippets of the user guide do.", "quantifier": "every sequence of calls on boxes and items of a slide, with every argument", "why_tests_cant": "ranges over unboundedly many inputs; a test can only sample literals", "anchors": ["elsie/boxtree/boxitem.py:_get_box", "elsie/boxtree/box.py:_get_box", "elsie/boxtree/boxmixin.py:box", "elsie/boxtree/boxmixin.py:_create_simple_box_item", "elsie/boxtree/boxmixin.py:_text_helper", "elsie/boxtree/boxmixin.py:x"]}
{"id": "C147", "title": "Sections of highlighted code are those written", "statement": "With `code(language, text, use_styles=True)` the sections that the user marked in the text begin in the shown code where they were written, in the same order, and there are no other sections with their names, so that `inline_box(name, n_th=n)` is for the n-th section written.", "quantifier": "every lexer, every code with balanced markup and every name of a style that is not one of the highlighting", "why_tests_cant": "ranges over unboundedly many inputs; a test can only sample literals", "anchors": ["elsie/boxtree/boxmixin.py:code", "elsie/text/textparser.py:tokens_merge", "elsie/text/textparser.py:_tokens_merge_helper"]}
