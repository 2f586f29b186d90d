TP = "elsie/text/textparser.py"
ANY = "ranges over unboundedly many inputs; a test can only sample literals"

# ------------------------------------------------------------------ inline markup
p("C01", "Inline markup round-trips",
  "Text written with inline styles `~style{...}`, nested to any depth and containing any text runs that avoid the three delimiter characters, is understood exactly: the parsed stream is, in document order, the text runs, line breaks and style openings/closings that were written (after the documented normal form: empty runs dropped, consecutive line breaks merged, line breaks moved outside a closing, trailing line breaks dropped).",
  "every styled-text tree, every choice of the three distinct delimiter characters", ANY,
  [TP + ":parse_text", TP + ":normalize_tokens", "elsie/boxtree/boxmixin.py:BoxMixin.text"])
p("C02", "Displayed text is the source with the markup removed",
  "Whenever box.text(s) accepts s, the characters displayed are exactly the characters of s outside of the markup (escape character, style names, opening brackets and the closing brackets that close a style), in order, except that line breaks at the very end may be dropped.",
  "every string and every choice of delimiters", ANY, [TP + ":parse_text", TP + ":tokens_to_text_without_style"])
p("C03", "Only an unclosed style is rejected, and accepted text is balanced",
  "box.text(s) raises exactly when some inline style is still open at the end of s; otherwise the style openings and closings in the result are properly nested.",
  "every string and every choice of delimiters", ANY, [TP + ":parse_text", TP + ":normalize_tokens"])
p("C04", "Parsed text is in normal form and normalising twice changes nothing",
  "In any parsed text there is no empty run, no run containing a line break, no two adjacent line-break tokens, no line break directly before a closing, and no line break at the end; normalising an already normalised text is the identity.",
  "every string and every choice of delimiters; every token stream", ANY, [TP + ":parse_text", TP + ":normalize_tokens"])
p("C05", "Text without the escape character is shown verbatim",
  "If the escape character does not occur in the text (or styles are disabled, as in code() without use_styles), the text is displayed verbatim and unstyled, apart from dropped trailing line breaks; brackets are ordinary characters.",
  "every string", ANY, [TP + ":parse_text", "elsie/boxtree/boxmixin.py:BoxMixin.code"])
p("C06", "Line count",
  "The number of lines used to size a text or code item equals one plus the number of line breaks in its displayed text.",
  "every token stream, in particular every parsed text", ANY, [TP + ":number_of_lines", "elsie/text/textboxitem.py:TextBoxItem._make_query"])
p("C07", "Doubled escape character is a literal escape character",
  "As documented (docs/userguide/text.md), writing the escape character twice displays it once, literally.",
  "every text surrounding the doubled escape character", ANY, [TP + ":parse_text", "docs/userguide/text.md"])
p("C08", "Delimiters are interchangeable",
  "Changing the delimiter characters (escape_char of length 3) consistently in the call and in the text changes nothing: parsing commutes with every injective renaming of characters that keeps the line break fixed.",
  "every string, every delimiter choice, every injective renaming", ANY, [TP + ":parse_text", "elsie/boxtree/boxmixin.py:BoxMixin.text"])
p("C09", "Line numbers",
  "code(line_numbers=True) prefixes line k of the snippet with the number k, zero-padded so that all labels have the same width, followed by a space, and leaves the rest of the snippet (text, line breaks, styles) unchanged; styles stay balanced.",
  "every token stream (any number of lines)", ANY, [TP + ":add_line_numbers"])
p("C10", "Extracting the line of an inline style",
  "The line handed to the text-measuring backend for inline_box consists of the styles open at the start of the line, the tokens of that line and the matching closings: it is balanced, has no line break, shows exactly the text of that line, and the returned index still designates the chosen style opening.",
  "every balanced token stream and every index that is not a line break", ANY, [TP + ":extract_line", TP + ":_open_blocks", TP + ":_open_blocks_count"])
p("C11", "Merging two markups of one text keeps the text and stays balanced",
  "Merging user styles with syntax-highlighting styles over the same text never fails, and the result shows exactly that text with properly nested styles.",
  "every pair of balanced normalised token streams with equal displayed text", ANY, [TP + ":tokens_merge", TP + ":_tokens_merge_helper"])
p("C12", "Merging keeps every character's styles",
  "After merging, every character carries exactly the styles it carried in the first markup together with those it carried in the second.",
  "every pair of balanced normalised token streams with equal displayed text", ANY, [TP + ":tokens_merge"])
p("C13", "Merging rejects different texts",
  "Merging two balanced normalised markups whose displayed texts differ raises instead of producing a mixed text.",
  "every pair of balanced normalised token streams", ANY, [TP + ":_tokens_merge_helper"])
p("C14", "Syntax highlighting neither loses nor invents text",
  "Whatever tokens the lexer produces, the highlighted stream shows the concatenation of the lexed values (minus trailing line breaks), balanced, each value under the style of its token type.",
  "every list of (token type, value) pairs", ANY, ["elsie/text/highlight.py:MyFormatter.format", "elsie/text/highlight.py:highlight_code"])
p("C15", "code() shows the code",
  "code(language, text, ...) displays the given text with tabs replaced by `tabsize` spaces and (with use_styles) the markup removed, up to trailing line breaks; without use_styles the leading line breaks dropped by the lexer are the only other loss; it does not raise for well-formed markup.",
  "every text, tab size, and every lexer that honours the pygments contract", ANY, ["elsie/boxtree/boxmixin.py:BoxMixin.code"])
p("C16", "Removing common indentation",
  "trim_indent removes the same number of leading whitespace characters from every non-blank line, as many as possible, and changes nothing else; applying it twice is the same as applying it once.",
  "every text with at least one non-blank line", ANY, [TP + ":trim_indent", "elsie/ext/markdown.py:markdown"])
p("C17", "inline_box selects the n-th occurrence",
  "inline_box(name, n) refers to the n-th opening of style `name` in document order if there are at least n of them and raises otherwise.",
  "every token stream, style name and n >= 1", ANY, ["elsie/text/textboxitem.py:TextBoxItem.inline_box"])
p("C18", "Line boxes tile the text",
  "line_box(i) starts at the top of line i; consecutive line boxes are one line height apart, the first starts at the top of the text block, the one past the last line starts at its bottom, and the text block is vertically centred in its box.",
  "every rectangle, text size and number of lines (exact arithmetic)", ANY, ["elsie/text/textboxitem.py:TextBoxItem.line_box", "elsie/text/textboxitem.py:TextBoxItem._text_box_helper"])

# ------------------------------------------------------------------ fragments
SH = "elsie/slides/show.py"
p("C19", "Meaning of show selectors",
  "A box created with show=\"i1,i2,...\" is visible in fragment s iff some item selects s: n selects n, n+ selects every fragment >= n, a-b selects a..b inclusive; `last`/`next` stand for the current fragment / the one after it. show=None selects every fragment >= 1 and show=n selects n.",
  "every syntactically valid selector (any number of items, any surrounding whitespace), every current fragment, every fragment", ANY, [SH + ":ShowInfo.parse", SH + ":ShowInfo.is_visible", SH + ":replace_relative_steps"])
p("C20", "Invalid show selectors are rejected",
  "A show string is accepted only if each comma-separated item is (after stripping) one of the documented forms, at most one item is open-ended, no range is reversed and no placeholder is used without a current fragment; everything else raises.",
  "every string", ANY, [SH + ":ShowInfo.parse"])
p("C21", "Page count of a slide",
  "After any sequence of successful box/image calls, the number of pages rendered for a slide is max(1, the highest fragment requested by any box or image so far), and current_fragment() returns that number.",
  "every history of calls on a slide", "every history", ["elsie/slides/slide.py:Slide.steps", "elsie/boxtree/boxmixin.py:BoxMixin.box", "elsie/boxtree/box.py:Box._ensure_steps"])
p("C22", "next opens a fresh fragment",
  "box(show='next') or 'next+' makes the box appear in a fragment strictly later than every fragment mentioned before on the slide; 'last' never adds a page; the current fragment never decreases.",
  "every history of calls on a slide", "every history", ["elsie/boxtree/boxmixin.py:BoxMixin.box", SH + ":replace_relative_steps"])
p("C23", "No fragment is lost",
  "Every fragment >= 1 selected by the closed items or the start of the open item of some box's show has a page, i.e. a box selected in fragment s is not silently dropped because the slide has too few pages.",
  "every history of calls on a slide and every box", "every history", ["elsie/slides/slide.py:Slide.steps", SH + ":ShowInfo.max_step"])
p("C24", "Visibility is hierarchical",
  "In fragment s exactly the items all of whose enclosing boxes are visible in s are painted, each exactly once.",
  "every box tree and fragment", ANY, ["elsie/boxtree/box.py:Box.get_painters"])
p("C25", "Paint order",
  "Items are painted in order of z-level, and items of equal z-level in depth-first order of the tree; the z-level of a box is the given one or its parent's.",
  "every box tree and fragment", ANY, ["elsie/render/backends/svg/backend.py:InkscapeBackend.create_render_unit", "elsie/boxtree/box.py:Box.get_painters"])
p("C26", "show does not influence layout",
  "Changing the show selector of any boxes leaves the rectangle of every box unchanged.",
  "every box tree and every pair of show assignments", ANY, ["elsie/boxtree/layout.py:Layout.set_rect"])
p("C27", "Placement among siblings",
  "box(prepend=True) becomes the first child, above=c directly follows c, below=c directly precedes c, otherwise last; the relative order of the other children never changes. In the layout it is the first with prepend and the last otherwise.",
  "every list of children", ANY, ["elsie/boxtree/box.py:Box.add_child", "elsie/boxtree/layout.py:Layout.add"])
p("C28", "A failed box() call changes nothing",
  "If box(...) raises (bad show, bad above/below, ...), the slide is as before: same page count, same layout, same painted items.",
  "every slide and every argument combination", "failure points inside the call", ["elsie/boxtree/boxmixin.py:BoxMixin.box", "elsie/boxtree/layout.py:Layout.add"])

# ------------------------------------------------------------------ layout
LA = "elsie/boxtree/layout.py"
VA = "elsie/boxtree/value.py"
p("C29", "Managed children are stacked without gaps",
  "Along the main axis each managed child starts exactly where the previous managed child ends, in creation order.",
  "every box, children and rectangle (exact arithmetic)", ANY, [LA + ":Layout.set_rect"])
p("C30", "Managed children are centred along the main axis when nothing fills",
  "If no managed child uses fill, the free space before the first and after the last managed child is equal.",
  "every box, children of documented size kinds (number, N%, fill) and rectangle (exact arithmetic)", ANY, [LA + ":Layout.set_rect"])
p("C31", "fill distributes exactly the remaining space in the given ratio",
  "If some managed child uses fill, the managed children together occupy exactly the parent's main-axis extent, and the sizes of fill children are proportional to their fill numbers.",
  "every box, children of documented size kinds (number, N%, fill) and rectangle (exact arithmetic)", ANY, [LA + ":Layout.set_rect", VA + ":SizeValue.compute"])
p("C32", "width/height are minimal sizes and content is respected",
  "The final size of a box is at least its requested size and at least the size its content requests (userguide/layout.md).",
  "every box tree and rectangle", ANY, [LA + ":Layout.compute_size_request", LA + ":Layout.set_rect", VA + ":SizeValue.compute"])
p("C33", "Content stays inside",
  "If the slide is at least as large as its content requests, every managed box lies inside its parent's inner rectangle, at every depth.",
  "every box tree of fixed/default sizes with non-negative paddings", ANY, [LA + ":Layout.set_rect", LA + ":Layout.compute_size_request"])
p("C34", "Padding shrinks the area given to content",
  "The area used for the content of a box is its rectangle shrunk by its paddings on each side, where each side's padding is the most specific one given (p_left over p_x over padding, absent = 0).",
  "every combination of padding arguments and every rectangle", ANY, [LA + ":Layout.add", LA + ":_set_padding", "elsie/utils/geom.py:Rect.shrink"])
p("C35", "Explicit positions",
  "x/y given as a number offset from the parent's top-left corner, \"N%\" at that fraction of the parent's width/height, \"[N%]\" aligned so that 0%, 50%, 100% mean left/top, centre, right/bottom; unmanaged cross-axis default is centred.",
  "every parent (vertical and horizontal), rectangle and value", ANY, [LA + ":Layout.set_rect", VA + ":PosValue.compute"])
p("C36", "Dynamic positions resolve to the final layout",
  "A position obtained from another box's x()/y()/p() and used to place a box resolves to that box's final rectangle.",
  "every box tree and every reference between boxes", "depends on traversal order over all trees", [LA + ":Layout.x", LA + ":Layout.set_rect", "elsie/boxtree/lazy.py:LazyValue"])
p("C37", "Rendering twice gives the same result",
  "Laying out and rendering the same unchanged deck again produces the same rectangles, text scale and text size.",
  "every box tree, rectangle and text size", "depends on history of renders", ["elsie/slides/slide.py:Slide.prepare", LA + ":Layout.set_rect", "elsie/text/textboxitem.py:TextBoxItem.__init__"])
p("C38", "Size strings",
  "width/height strings are accepted iff they are digits, digits%, fill or fill(digits), and denote that minimal size, ratio or fill factor; anything else raises.",
  "every string", ANY, [VA + ":SizeValue.parse"])
p("C39", "Position strings",
  "x/y strings are accepted iff they are digits, digits% or [digits%], and denote that offset, ratio or alignment; anything else raises.",
  "every string", ANY, [VA + ":PosValue.parse"])
p("C40", "Layout is translation invariant",
  "Moving the slide rectangle moves every box by the same vector and changes no size.",
  "every box tree without dynamic values, every rectangle and offset", ANY, [LA + ":Layout.set_rect"])
p("C41", "overlay covers exactly the parent's inner area",
  "overlay() yields a box whose rectangle equals the inner rectangle of its parent, whatever the axis of the parent, as long as the overlay's own content is not larger.",
  "every parent and rectangle", ANY, ["elsie/boxtree/boxmixin.py:BoxMixin.overlay", LA + ":Layout.set_rect"])
p("C42", "Images keep their aspect ratio and fit",
  "An image without explicit scale is drawn centred with its aspect ratio, not exceeding the box and touching it in at least one dimension.",
  "every non-degenerate box rectangle and image size", ANY, ["elsie/boxtree/boxmixin.py:scaler", "elsie/boxtree/boxmixin.py:BoxMixin._image_bitmap"])

# ------------------------------------------------------------------ styles
TS = "elsie/text/textstyle.py"
SC = "elsie/text/stylecontainer.py"
p("C43", "Unspecified style attributes are inherited",
  "a.compose(b) has b's value for every attribute b specifies and a's value for every attribute b leaves unspecified; neither a nor b changes.",
  "every pair of styles", ANY, [TS + ":TextStyle.compose", TS + ":TextStyle.update"])
p("C44", "Composition is associative",
  "(a.compose(b)).compose(c) equals a.compose(b.compose(c)).",
  "every triple of styles", ANY, [TS + ":TextStyle.compose"])
p("C45", "Styles are scoped to the box and its later descendants",
  "set_style/update_style on one box never changes what an already existing other box, an already created text item, or the deck resolves for any style name; a new box resolves every name as its parent does at that moment.",
  "every history of style operations on a deck and its boxes", "every history (aliasing of shared dictionaries)", [SC + ":StyleContainer.set_style", SC + ":StyleContainer.update_style", "elsie/boxtree/boxmixin.py:BoxMixin.box"])
p("C46", "get_style hands out a private copy",
  "Mutating a style returned by get_style changes no named style anywhere until it is set again.",
  "every history of style operations and mutations", "every history (aliasing)", [SC + ":StyleContainer.get_style", TS + ":compose_style"])
p("C47", "A style once assigned is fixed",
  "After set_style(name, s), later in-place changes of the object s do not change the named style.",
  "every history of style operations and mutations", "every history (aliasing)", [SC + ":StyleContainer.set_style"])

# ------------------------------------------------------------------ deck
SD = "elsie/slides/slidedeck.py"
p("C48", "Name policy",
  "Under policy unique or replace no two slides ever share a (non-None) name; under replace the most recent slide of a name is kept, at the end; under unique creating a duplicate raises and leaves the deck unchanged; other slides keep their order.",
  "every history of new_slide/add_pdf calls", "every history", [SD + ":SlideDeck._apply_name_policy", SD + ":SlideDeck.new_slide"])
p("C49", "Adding a PDF does not disturb slide creation",
  "After add_pdf, slides with fresh names can still be created under every name policy.",
  "every history of new_slide/add_pdf calls", "every history", [SD + ":SlideDeck.get_slide_by_name", "elsie/slides/slide.py:ExternPdfSlide"])
p("C50", "Pages come out in order, each exactly once",
  "render() exports the pages slide by slide in deck order, fragment by fragment from 1 to the slide's page count, each exactly once.",
  "every deck", ANY, [SD + ":SlideDeck.render"])
p("C51", "Several slides per page",
  "slides_per_page=(x,y) produces ceil(n/(x*y)) pages for n rendered pages; page k holds pages k*x*y .. in order, each exactly once, in distinct grid cells inside the page, row by row.",
  "every number of pages and every grid", ANY, ["elsie/render/render.py:per_page_grouping"])
p("C52", "Grouping keeps the order with embedded PDFs",
  "With slides_per_page, embedded PDF pages keep their place between the slides before and after them.",
  "every sequence of slides and PDFs", ANY, ["elsie/render/render.py:per_page_grouping", SD + ":SlideDeck.add_pdf"])
p("C53", "slides_per_page=(R,C) means R rows and C columns",
  "As documented, the first component is the number of rows and the second the number of columns.",
  "every grid", ANY, [SD + ":SlideDeck.render", "elsie/render/render.py:per_page_grouping"])
p("C54", "Debug files do not overwrite each other",
  "In debug mode every page of a deck is written to its own file.",
  "every history of slide creation under every name policy", "every history", ["elsie/render/render.py:SvgRenderUnit.write_debug", SD + ":SlideDeck.new_slide"])

# ------------------------------------------------------------------ XML / text rendering
SX = "elsie/utils/sxml.py"
SV = "elsie/render/backends/svg/draw.py"
CT = "elsie/render/backends/cairo/text.py"
p("C55", "The XML writer only emits well-formed documents",
  "Whatever sequence of element/set/text/close calls is made with XML names, characters XML allows, no apostrophe in attribute values and no attribute set twice on one element, if to_string succeeds the output is read back as the forest whose nesting is the nesting of the calls.",
  "every sequence of writer calls", "every history", [SX + ":Xml"])
p("C56", "Element text survives escaping",
  "Reading the XML produced for a text run gives back the run, with each space turned into a non-breaking space; no run can introduce markup.",
  "every string", ANY, [SX + ":Xml.text", SX + ":escape_text"])
p("C57", "Attribute values survive escaping",
  "Reading an attribute written by the writer gives back the value; no value can end the attribute early.",
  "every string", ANY, [SX + ":Xml.set", SX + ":escape_text"])
p("C58", "Every balanced text renders to well-formed SVG",
  "Drawing any balanced token stream whose styles exist succeeds and yields a well-formed <text> element that shows the text line by line.",
  "every balanced token stream, style table and alignment", ANY, [SV + ":draw_text"])
p("C59", "Style priority",
  "An inline style is applied iff its priority is at least the priority of the innermost enclosing applied style.",
  "every balanced token stream and style table; both backends", ANY, [SV + ":draw_text", CT + ":get_text_and_attributes"])
p("C60", "Cairo attribute ranges partition the text",
  "The attribute ranges generated for the Cairo backend cover every byte of the text exactly once, in order, each with the style in force there.",
  "every balanced token stream and style table", ANY, [CT + ":get_text_and_attributes"])
p("C61", "Cairo inline_box measures exactly the styled section",
  "The byte range measured for an inline style starts where the style's text starts and ends where it ends.",
  "every balanced single-line token stream and every style opening", ANY, [CT + ":get_byte_range"])

# ------------------------------------------------------------------ images
p("C62", "Fragments inside images",
  "For image fragment f, exactly the elements that (themselves or through an ancestor below the root) carry a label not visible in f are removed; everything else is kept in place, and the cached image is not changed.",
  "every element tree, labelling and fragment", ANY, ["elsie/render/image.py:create_image_data"])
p("C63", "Image fragments are scheduled on the slide as documented",
  "With show_begin=b, image fragment f is shown in slide fragment b-1+f and nothing before b; with select_fragments=[...], slide fragment b-1+k shows the k-th entry (None = nothing); the slide has enough pages for all of them.",
  "every image, show_begin, select_fragments and slide fragment", ANY, ["elsie/boxtree/boxmixin.py:BoxMixin._image_svg"])
p("C64", "ORA conversion keeps visible layers in order",
  "Converting an ORA file yields, bottom-most first, exactly the non-empty layers all of whose enclosing stacks and themselves are visible.",
  "every layer tree", ANY, ["elsie/render/ora.py:_children_to_svg"])

# ------------------------------------------------------------------ geometry
p("C65", "view_box shows the requested region",
  "With the Cairo backend, view_box=(x,y,w,h) maps that region, uniformly scaled and centred, completely onto the page, as large as possible.",
  "every page size and view box with positive sizes", ANY, ["elsie/render/backends/cairo/draw.py:apply_viewbox"])
p("C66", "Quadratic curves are drawn exactly",
  "The cubic curve emitted for a quadratic segment coincides with it at every parameter.",
  "every three points and parameter", ANY, ["elsie/render/backends/cairo/shapes.py:draw_quadratic_bezier"])
p("C67", "Smooth path commands follow SVG",
  "Cairo draws S and T (and repeated argument groups) as the SVG specification says: the first control point is the reflection of the previous curve's last control point.",
  "every command sequence", ANY, ["elsie/render/backends/cairo/shapes.py:draw_path"])
p("C68", "Rounded rectangles close and stay inside",
  "The outline of a rounded rectangle returns to its start point and never leaves the rectangle, for any non-negative radii.",
  "every rectangle and non-negative radii", ANY, ["elsie/render/backends/cairo/draw.py:rounded_rectangle"])
p("C69", "Resizing a segment",
  "segment_resize moves the end point along the segment so that its length changes by exactly the given amount.",
  "every non-degenerate segment and change (real arithmetic)", ANY, ["elsie/utils/geom.py:segment_resize", "elsie/shapes/arrow.py:Arrow.move_end_point"])

# ------------------------------------------------------------------ caches
CA = "elsie/utils/cache.py"
SB = "elsie/render/backends/svg/backend.py"
p("C70", "A returned cache path is a finished file",
  "Whenever ensure() (waiting on collisions) returns normally in any thread, the file it names has been completely constructed by a constructor for that key or was present when the cache was opened.",
  "every number of threads and every interleaving", "every schedule", [CA + ":FsCache.ensure"])
p("C71", "The constructor runs at most once per key",
  "Within a process the constructor for a given input runs at most once, whatever the interleaving, and no call fails because of another.",
  "every number of threads and every interleaving", "every schedule", [CA + ":FsCache.ensure"])
p("C72", "A failed construction can be retried",
  "If the constructor raises, a later ensure() for the same input runs it again (or raises) instead of blocking.",
  "every history with failing constructors", "every history / failure point", [CA + ":FsCache.ensure"])
p("C73", "Pruning keeps what was used, and the cache stays usable",
  "remove_unused deletes exactly the known files that were not touched; afterwards every later ensure/get still yields an existing file, and pruning again does not fail.",
  "every history of cache operations", "every history", [CA + ":FsCache.remove_unused"])
p("C74", "A crash never leaves a bad cache entry",
  "If the process dies at any point, the next session never uses an incompletely written file or fails because of one.",
  "every crash point", "every crash point", [CA + ":FsCache.ensure", SB + ":InkscapeBackend._save_query_cache"])
p("C75", "Cached measurements are those of the running Inkscape",
  "process_query always returns the value the current Inkscape version gives for that query, across any sequence of sessions, versions, prunes and saves.",
  "every history of sessions", "every history", [SB + ":InkscapeBackend.process_query", SB + ":InkscapeBackend._load_query_cache"])
p("C76", "Rendering saves the measurements it used",
  "After render() with default options the saved query cache contains every query used by the deck.",
  "every history of text creation and renders", "every history", [SB + ":InkscapeBackend.prune_cache", SB + ":InkscapeBackend.save_cache"])
p("C77", "Different inputs never share a cache file",
  "Within a session, two (input, type) pairs share a cache file only if they are equal (assuming an injective hash).",
  "every pair of inputs and types", ANY, [CA + ":FsCache._get_filename"])

# ------------------------------------------------------------------ extensions
LI = "elsie/ext/list.py"
p("C78", "List counters",
  "The k-th item of an ordered (sub)list is labelled with the counters its parent list had when the sublist was created (or the given level), followed by start+k-1.",
  "every history of item/ol/ul calls on a family of lists", "every history", [LI + ":ListBuilder"])
p("C79", "List indentation",
  "A sublist nested k levels deep with indent d is indented by d per level.",
  "every nesting depth and indent", ANY, [LI + ":ListBuilder._create_box", LI + ":ListBuilder._create_sublist"])
p("C80", "Markdown emphasis becomes inline styles",
  "For inline markdown free of delimiter characters, emphasis, strong emphasis and links at any nesting become exactly the corresponding inline styles around the same text.",
  "every inline tree", ANY, ["elsie/ext/markdown.py:get_raw_text", "elsie/ext/markdown.py:MarkdownContext.wrap_text_with_style"])
p("C81", "Notebook navigation stays in range",
  "Clicking previous/next any number of times keeps the shown fragment between 1 and the number of fragments, moving by one when possible.",
  "every click sequence and fragment count", "every history", ["elsie/render/jupyter.py:get_javascript"])
p("C82", "Renaming ids keeps references resolved",
  "After rename_ids every reference to an id of the document refers to the renamed id.",
  "every document", ANY, ["elsie/render/backends/svg/utils.py:rename_ids"])
p("C83", "Inkscape replies are read exactly",
  "Reading up to the prompt returns exactly the reply and leaves the stream just after the prompt, and returns (or fails) if Inkscape exits.",
  "every reply and stream continuation", ANY, ["elsie/render/inkscape.py:InkscapeShell.wait_for_prompt"])

# ------------------------------------------------------------------ more about shapes
CS = "elsie/render/backends/cairo/shapes.py"
CD = "elsie/render/backends/cairo/draw.py"
CR = "elsie/render/backends/cairo/rcontext.py"
p("C84", "Items do not influence each other (Cairo)",
  "With the Cairo backend an item is painted the same way whatever was painted before it on the page.",
  "every list of items drawn before, every item", "every sequence of items", [CR + ":CairoRenderingContext", CS, CD])
p("C85", "Rounded corners are elliptical",
  "Every corner of a rounded rectangle drawn by the Cairo backend is (an approximation of) a quarter of the ellipse with the given radii, as in the SVG backend.",
  "every rectangle, radii and point of a corner", ANY, [CD + ":rounded_rectangle"])
p("C86", "Ellipses fill their rectangle",
  "With the Cairo backend box.ellipse paints exactly the ellipse inscribed in the rectangle, and its border has the same width everywhere.",
  "every rectangle, transformation and paint", ANY, [CR + ":CairoRenderingContext.draw_ellipse", CD + ":fill_stroke_shape"])
p("C87", "Arrow heads",
  "The tip of an arrow head is the end of its line; both sides have the given size and make the given angle with the line; the inner point is on the line; the line is shortened to end inside the head and only its end points move.",
  "every line, size and angle (real arithmetic)", ANY, ["elsie/shapes/arrow.py:Arrow.render", "elsie/shapes/arrow.py:Arrow.move_end_point", "elsie/boxtree/boxmixin.py:BoxMixin.line"])
p("C88", "Arrows at the end of a path follow the path",
  "The end arrow of box.path is at the end of the path and points in the direction of the curve there.",
  "every path", ANY, ["elsie/shapes/path.py:path_points_for_end_arrow", "elsie/boxtree/boxmixin.py:BoxMixin.path"])
p("C89", "Accepted paths can be drawn",
  "Path commands accepted when the path is created are known commands with the right numbers of points, and can be drawn.",
  "every list of commands", ANY, ["elsie/shapes/path.py:check_and_unpack_path_commands", CS + ":draw_path"])

# ------------------------------------------------------------------ more about the file cache
p("C90", "Cached files are right",
  "Across any sequence of sessions with any versions, requests and prunings, the contents a request gets are those its own constructor, in the version of its session, would write for its input.",
  "every sequence of sessions", "every history", [CA + ":FsCache.ensure", CA + ":FsCache.get", CA + ":FsCache._get_filename"])

# ------------------------------------------------------------------ more about extensions and tools
p("C91", "Box arguments of list items",
  "Each argument of the box of a list item is the one given to item(), else the one of the nearest enclosing list that has it, and show is last+ if nobody sets it.",
  "every history of item/ol/ul calls with box arguments", "every history", [LI + ":ListBuilder.item", LI + ":ListBuilder._create_sublist", LI + ":ListBuilder._create_box"])
p("C92", "Markdown shows its text",
  "All text of a Markdown paragraph is shown: what a reader sees is the text of the paragraph without its Markdown markup.",
  "every inline tree", ANY, ["elsie/ext/markdown.py:get_raw_text", "elsie/ext/markdown.py:build_text"])
p("C93", "Commands to Inkscape get their own answers",
  "If no line of a reply looks like a prompt, every command of a sequence returns the last line of its own reply, whatever warnings precede it.",
  "every sequence of replies", ANY, ["elsie/render/inkscape.py:InkscapeShell.run_command"])
p("C94", "LaTeX snippets do not share ids",
  "Two different LaTeX snippets on a slide have no SVG id in common, and different ids of a snippet stay different.",
  "every pair of snippets and converted documents", ANY, ["elsie/ext/latex.py:_render_latex", "elsie/render/backends/svg/utils.py:rename_ids"])
p("C95", "SVG images have the size they declare",
  "An image whose width is given in any absolute CSS unit is laid out with that width (96 pixels per inch).",
  "every number and unit", ANY, ["elsie/render/backends/svg/utils.py:svg_size_to_pixels"])
p("C96", "SVG pages show the shapes that were asked for",
  "A page rendered with the SVG backend is a well-formed document in which an SVG reader finds exactly the shapes, paths and bitmaps drawn, in their order, each with its position, size, corner radii, rotation, colours, outline width and dash pattern, and with the size and view box of the slide.",
  "every list of items, every slide size and view box, every way of writing numbers that can be read back", ANY,
  ["elsie/render/backends/svg/draw.py:draw_rect", "elsie/render/backends/svg/draw.py:draw_path", "elsie/render/backends/svg/rcontext.py:SvgRenderingContext"])
p("C97", "Both backends draw the same shapes",
  "A rectangle, ellipse, polygon, line, path or bitmap drawn with the Cairo backend has the same position, rotation, size, corners, colours, outline width and dash pattern as what an SVG reader sees on the page of the SVG backend.",
  "every item and every page transformation", ANY,
  ["elsie/render/backends/cairo/rcontext.py:CairoRenderingContext", "elsie/render/backends/cairo/draw.py:stroke_shape", "elsie/render/backends/svg/draw.py:draw_rect"])
p("C98", "Documented name policies",
  "The values accepted as name_policy are \"auto\", \"ignore\", \"replace\" and \"unique\", and each has the documented effect; \"auto\" is \"replace\" inside Jupyter and \"unique\" otherwise.",
  "every value, inside and outside Jupyter", "every string", [SD + ":SlideDeck.__init__"])
p("C99", "Texts and images fit into their boxes",
  "A text (not scaled to a given size), or an image in a box of which no size was given, fits into the area of its box inside the paddings, whatever else is put on the slide before and after.",
  "every history of calls on a slide, every box and every text or image in it", ANY,
  ["elsie/boxtree/layout.py:Layout.ensure_width", "elsie/boxtree/layout.py:Layout.set_image_size_request", "elsie/text/textboxitem.py:TextBoxItem._make_query"])
p("C100", "Images in boxes with a given size",
  "An image without explicit scale in a box whose width or height was given is drawn inside its box, with its aspect ratio, and is at least as wide or high as given (less the paddings).",
  "every history of calls on a slide, every box with a given width or height, every image", ANY,
  ["elsie/boxtree/layout.py:Layout.set_image_size_request", "elsie/boxtree/boxmixin.py:scaler"])
p("C101", "Texts are completed by the default style",
  "get_style(x) has exactly the attributes of the style x stands for; get_style(x, full_style=True) and text(..., style=x) have in addition the default style's value for every attribute that x leaves unspecified, as both are at that moment in that box. Unknown names and other objects are rejected. Later changes of styles do not change the text.",
  "every history of style operations, every style argument", "every history (aliasing of style objects)",
  ["elsie/text/textstyle.py:compose_style", "elsie/text/stylecontainer.py:StyleContainer.get_style", "elsie/boxtree/boxmixin.py:BoxMixin.text"])
p("C102", "Lines are drawn in their line boxes",
  "In an SVG page every line of a text is anchored at the left edge, the middle or the right edge of its box (as the alignment says), and its base line is the (scaled) font size below the top of line_box of that line; a rotated text is all this turned around the middle of the box. (First rendering; see C37 for later ones.)",
  "every rectangle, text that can be drawn (C58), style, alignment and rotation, with and without scale_to_fit", ANY,
  ["elsie/text/textboxitem.py:TextBoxItem.render", "elsie/text/textboxitem.py:text_x_in_rect", "elsie/render/backends/svg/rcontext.py:SvgRenderingContext.draw_text"])
p("C103", "The right part of a text is measured",
  "When a text is made, Inkscape is asked for the width of a document in which exactly one element has the id asked for, the whole text. For inline_box(style, n) it is asked for the position and the width in a document that shows the line in which the n-th such section begins; exactly one element has the id asked for, and it shows the section up to the end of that line.",
  "every text, style table and style; for inline boxes every section, also one that goes over several lines", ANY,
  ["elsie/render/backends/svg/backend.py:InkscapeBackend._text_query", "elsie/render/backends/svg/query.py:compute_query", "elsie/text/textboxitem.py:TextBoxItem._text_box_helper", "elsie/text/textboxitem.py:TextBoxItem.inline_box"])
p("C104", "Boxes placed by hand leave the others alone",
  "A box with an explicit position along the main axis of its parent (in particular every overlay), and everything put into it, has no influence on the rectangles of the other boxes: they are as if it had not been created.",
  "every history of calls on a slide, every such box to which no position or size of a box outside of it refers", ANY,
  ["elsie/boxtree/layout.py:Layout.is_managed", "elsie/boxtree/layout.py:Layout.set_rect", "elsie/boxtree/boxmixin.py:BoxMixin.overlay"])
p("C105", "Sizes of boxes, fbox and sbox",
  "The size of a box is the given number or what its content needs, whichever is larger; for N% it is N% of the parent, but not less than what its content needs; fill across the main axis gives the whole parent. sbox spreads over its parent across the main axis, and fbox alone in its parent covers it exactly.",
  "every layout tree, every box without dynamic size", ANY,
  ["elsie/boxtree/value.py:SizeValue.compute", "elsie/boxtree/layout.py:Layout.set_rect", "elsie/boxtree/boxmixin.py:BoxMixin.fbox", "elsie/boxtree/boxmixin.py:BoxMixin.sbox"])
p("C106", "What a page shows",
  "Page n of a slide shows exactly the items whose box is shown on page n, and a box is shown if its own show argument selects n (next and last refer to the pages the slide had when the box was created) and the box around it is shown. Items on smaller z-levels are painted first; on the same level they are painted in the order of a walk through the boxes, where the things in a box come in the order in which they were put into it with prepend, above and below taken into account.",
  "every history of calls on a slide, every page", ANY,
  ["elsie/boxtree/boxmixin.py:BoxMixin.box", "elsie/boxtree/boxitem.py:BoxItem", "elsie/boxtree/box.py:Box.get_painters", "elsie/render/backends/svg/backend.py:InkscapeBackend.create_render_unit", "elsie/slides/show.py:ShowInfo.is_visible"])
p("C107", "Points of lines, polygons and paths",
  "In a point (x, y) given to a drawing method of a box, numbers count from the upper left corner of the box and position strings are relative to its size. box.p(x, y) is the point (x, y) of that box and box.mid_point() its middle, whichever box uses the point; .add(dx, dy) moves a point by exactly that. Everything is evaluated with the final rectangles of the boxes. A polygon takes any points, a line at least two; a command of a path is M, L, T, S, Q or C with a multiple of 1, 1, 1, 2, 2 or 3 points, anything else is refused by the call. Points keep their order.",
  "every point, every assignment of rectangles to boxes", ANY,
  ["elsie/boxtree/lazy.py:unpack_point", "elsie/boxtree/lazy.py:LazyPoint.add", "elsie/boxtree/layout.py:Layout.point", "elsie/boxtree/boxmixin.py:BoxMixin.mid_point"])
p("C108", "From the calls to the SVG page",
  "The SVG page of a slide is well-formed and has the size and view box of the slide. On it are exactly the things drawn in the boxes that are shown on this page, each once and in painting order (C106): every rectangle and ellipse on the rectangle of its box, every line, polygon and path through its points (C107), every bitmap and SVG picture with its aspect ratio in the middle of its box, with colours, outline and rotation as given (an SVG picture is the document its image has on this page), and every text with its lines where C102 says. The boxes are laid out with the room that the drawn things take, and the slide has the pages that its boxes and pictures need. (For texts within C58 and shapes within C96.)",
  "every history of box and drawing calls on a slide, every page", ANY,
  ["elsie/render/backends/svg/backend.py:InkscapeBackend.create_render_unit", "elsie/boxtree/boxmixin.py:BoxMixin.rect", "elsie/boxtree/boxmixin.py:BoxMixin.line", "elsie/boxtree/boxmixin.py:BoxMixin.path", "elsie/boxtree/boxmixin.py:BoxMixin._image_bitmap", "elsie/boxtree/boxmixin.py:BoxMixin._image_svg", "elsie/render/backends/svg/rcontext.py:SvgRenderingContext.draw_svg", "elsie/shapes/path.py:check_and_unpack_path_commands"])
p("C109", "Further calls leave what was there",
  "Whatever is called on a slide later, a page shows of the things created before exactly those it showed before, on the same z-levels and in the same order. No page is lost.",
  "every history of calls on a slide and every continuation of it, every page", ANY,
  ["elsie/boxtree/boxmixin.py:BoxMixin.box", "elsie/boxtree/box.py:Box.add_child", "elsie/boxtree/box.py:Box.get_painters", "elsie/slides/slide.py:Slide.steps"])
p("C110", "Slides can be scaled",
  "When the size of a slide and all lengths (positions and sizes given as numbers, paddings, sizes of texts and pictures) are multiplied by the same positive number, the same boxes and items come about and every rectangle is multiplied by this number. Percentages, fill and references to other boxes stay as they are.",
  "every history of calls on a slide, every positive factor", ANY,
  ["elsie/boxtree/layout.py:Layout.set_rect", "elsie/boxtree/layout.py:Layout.compute_size_request", "elsie/boxtree/layout.py:Layout.set_image_size_request", "elsie/boxtree/value.py:SizeValue.compute", "elsie/boxtree/value.py:PosValue.compute"])
p("C111", "Rows are columns with the axes exchanged",
  "A row (horizontal=True) lays out its children as a column does with the axes exchanged: when x and y, width and height, left and top and rows and columns are exchanged everywhere, every rectangle has its axes exchanged.",
  "every history of calls inside a box that covers the slide", ANY,
  ["elsie/boxtree/layout.py:Layout.set_rect", "elsie/boxtree/layout.py:Layout.min_children_size", "elsie/boxtree/layout.py:Layout.is_managed"])
p("C112", "Pages made with Cairo show what was drawn",
  "A PDF or PNG page made by the Cairo backend shows exactly what was drawn in the boxes that are on this page, in the order of the boxes and levels: every shape and picture where its box and its points are, with its colours, outline and rotation, every text with its characters and styles and its first base line where the SVG page has it, and of every SVG picture the document of this page over its rectangle; all this at the resolution of the page and seen through the view box of the slide.",
  "every history of calls, every page, PDF and PNG, with and without a view box", ANY,
  ["elsie/render/backends/cairo/backend.py:CairoBackend.create_render_unit", "elsie/render/backends/cairo/rcontext.py:CairoRenderingContext", "elsie/render/backends/cairo/text.py:build_layout", "elsie/render/backends/cairo/svg.py:CairoSurface", "elsie/boxtree/boxmixin.py:BoxMixin"])
p("C113", "The slide is the page",
  "The box of a slide is exactly the page, whatever it contains, so for boxes directly in the slide positions and sizes mean the page: numbers are distances from its edges, percentages are fractions of it, [P%] divides its free room, fill in width is its width, and boxes without x are centred.",
  "every history of calls on a slide of any size", ANY,
  ["elsie/slides/slide.py:Slide.prepare", "elsie/slides/slide.py:Slide.__init__", "elsie/boxtree/layout.py:Layout.set_rect"])
p("C114", "Backgrounds",
  "A slide with a background colour (the one given to new_slide, otherwise that of the deck; an empty string means none) has on all its pages, below everything else, a rectangle of the size of the page filled with this colour and without outline. (As long as no z-level of -1000000 or less is used on the slide.)",
  "every deck, every interleaving of calls on its slides, every page; both backends", ANY,
  ["elsie/slides/slidedeck.py:SlideDeck.new_slide", "elsie/boxtree/boxmixin.py:BoxMixin.rect", "elsie/boxtree/box.py:Box.get_painters"])
p("C115", "From the calls to the pages of the deck",
  "Slides and PDFs can be added and slides can be drawn on in any order. What is rendered then is every slide of the deck (C48) with all its pages (C21) and every PDF, in the order of the deck and each once; and every page shows what was drawn on its own slide (C108, with Cairo C112), in the size of the deck and with the view box of that slide, whatever was drawn on the other slides.",
  "every sequence of calls, both backends", ANY,
  ["elsie/slides/slidedeck.py:SlideDeck.render", "elsie/slides/slidedeck.py:SlideDeck.new_slide", "elsie/slides/slidedeck.py:SlideDeck.add_pdf", "elsie/slides/slide.py:Slide.prepare", "elsie/render/backends/svg/backend.py:InkscapeBackend.create_render_unit", "elsie/render/backends/cairo/backend.py:CairoBackend.create_render_unit"])

p("C116", "Documents with several pages",
  "With slides_per_page and Inkscape, every document that is rendered is well-formed SVG as large as the grid and contains exactly its share of the pages of the deck (C115): each of them complete, moved to its row and column. There are as few documents as possible, and a grid of one cell changes nothing.",
  "every sequence of calls on a deck, every grid", ANY,
  ["elsie/render/render.py:per_page_grouping", "elsie/slides/slidedeck.py:SlideDeck.render", "elsie/render/backends/svg/utils.py:svg_begin", "elsie/utils/sxml.py:Xml.raw_text"])

p("C117", "render() delivers all pages",
  "With Inkscape, render() exports every page (or grid) of the deck once and in order. Each file holds what Inkscape makes of its own page, whatever was in the cache; embedded PDFs are used as they are. For other types than PDF, or without a merger, the files are returned in this order and are not pruned; otherwise they are merged in this order into the output. render() can be called again in the same session.",
  "every deck, every session, every contents of the cache directory", ANY,
  ["elsie/slides/slidedeck.py:SlideDeck.render", "elsie/render/render.py:SvgRenderUnit.export", "elsie/render/render.py:ExportedRenderUnit.export", "elsie/render/pdfmerge.py:get_pdf_merger_by_name", "elsie/render/pdfmerge.py:ExternalMerger.write", "elsie/utils/cache.py:FsCache.ensure", "elsie/utils/cache.py:FsCache.remove_unused"])
p("C118", "A presentation shows the pages of the deck",
  "export_pptx() makes a presentation with one slide per page of the deck (or per grid), in order. Each slide is blank apart from the picture of its own page, which covers the slide and keeps the proportions of the page. Without a blank layout it raises before anything is rendered.",
  "every deck, every session, every template", ANY,
  ["elsie/ext/export.py:export_pptx", "elsie/slides/slidedeck.py:SlideDeck.render"])
p("C119", "Markdown is shown in its order",
  "markdown() shows all blocks of a document: there is one text for every heading, paragraph, empty line, fenced code and label of a list item, it shows what the source says in the style for this kind of block, it is in as many quotations as in the source, and comes before everything that follows in the source.",
  "every document of headings, paragraphs, quotations, fenced code and lists, nested in any way", ANY,
  ["elsie/ext/markdown.py:build_children", "elsie/ext/markdown.py:build_list_top", "elsie/ext/markdown.py:build_quote", "elsie/ext/markdown.py:build_text", "elsie/ext/list.py:ListBuilder.item", "elsie/ext/list.py:ListBuilder.ul", "elsie/ext/list.py:ListBuilder.ol"])
p("C120", "Boxes of lines and sections are where the text is",
  "The box that line_box(i, n) of a text creates covers exactly the rows i to i + n - 1 of the text as it is drawn (one pixel more at the bottom) over the whole width of the box of the text; the box that inline_box(name, k) creates covers the row in which the k-th section with this name begins, from the measured beginning of the section on, as wide as the measured section. This also holds for texts that are scaled to their box.",
  "every sequence of calls on the boxes and texts of a slide, and every text, scaled or not", ANY,
  ["elsie/text/textboxitem.py:TextBoxItem.line_box", "elsie/text/textboxitem.py:TextBoxItem.inline_box", "elsie/text/textboxitem.py:TextBoxItem._text_box_helper", "elsie/boxtree/layout.py:Layout.set_rect"])
p("C121", "A text style holds only allowed values",
  "Assigning an attribute of a TextStyle, or giving it to the constructor, is accepted exactly if the value is allowed: a string for font and color, a number for size, line_spacing, opacity and priority, a truth value for bold and italic, one of the documented names for align and variant_numeric; None for all but the priority. Other attributes and other values raise an exception. An accepted value can be read back and changes no other attribute. Whatever a program does with styles, all attributes of all styles have allowed values; the opacity is between 0 and 1.",
  "every program that creates, changes, copies, updates and composes styles, with values of any type", ANY,
  ["elsie/text/textstyle.py:TextStyle", "elsie/text/textstyle.py:_check_string", "elsie/text/textstyle.py:_check_number", "elsie/text/textstyle.py:_check_bool", "elsie/text/textstyle.py:_check_choice"])
p("C122", "Pages with debug_boxes show the pages and a frame for every box",
  "With debug_boxes=True every SVG page is well-formed XML that shows what the page shows without debug_boxes, in the same order, and besides exactly one frame for the slide and for every box that is on the page: an outline of the box (at least a tenth of a pixel wide and high; continuous or dashed depending on how deep the box is) and a label with the name of the box and its size, beginning in the upper or lower left corner. Frames are sorted with everything else by z_level; on the same level the frame of a box is above what is in the box.",
  "all sequences of box and drawing calls, all pages, names and styles of boxes", ANY,
  ["elsie/boxtree/box.py:Box.get_painters", "elsie/boxtree/box.py:Box._debug_paint", "elsie/slides/slide.py:Slide.make_render_unit", "elsie/render/backends/svg/backend.py:SvgBackend.create_render_unit"])
p("C123", "Styles of Markdown documents",
  "When markdown() puts a document into a box, every text of the document has the default style of the box, with the quotation style over it inside quotations, and over that the style for what it is (heading of its level, paragraph, code); bold, italic and linked sections have the styles with those names. If the box has a style under the documented name (md-paragraph, md-bold, md-italic, md-link, md-blockquote, md-heading-1 to md-heading-6, code) it is this one, otherwise the predefined one. Styles of boxes and texts that were there before do not change.",
  "all reachable states of styles, all boxes and all documents that markdown() accepts", ANY,
  ["elsie/ext/markdown.py:create_root_md_box", "elsie/ext/markdown.py:build_quote", "elsie/ext/markdown.py:markdown", "elsie/text/stylecontainer.py:StyleContainer.update_style"])
p("C124", "Boxes are where the calls say",
  "After any box(), text(), image() and drawing calls, if the slide can be laid out: every box made by box(x, y, width, height, horizontal, prepend, p_*) in a box P is, with its paddings and on each axis, at the place that its arguments say: x and y as numbers, percentages, alignments or values depending on other boxes (wherever these are in the end); in the middle of P across its direction if nothing is said; as wide and high as the number, percentage, fill or value depending on other boxes says, exactly if it is empty and at least otherwise. The boxes of P without a position along its direction are stacked without gaps in their order, centred together, or sharing the whole of P if some of them fill. (Relative y in a box with horizontal=True is left out here: C35.)",
  "all sequences of calls, all boxes at any depth, all documented arguments, all sizes of the slide", ANY,
  ["elsie/boxtree/boxmixin.py:BoxMixin.box", "elsie/boxtree/layout.py:Layout.set_rect", "elsie/boxtree/layout.py:Layout.add", "elsie/boxtree/value.py:SizeValue.parse", "elsie/boxtree/value.py:PosValue.parse", "elsie/boxtree/lazy.py:LazyValue.eval"])
p("C125", "A picture shows what its file contains",
  "image(source) shows what the file contains when image() is called. The kind of the picture is image_type, or the extension of the file name; other calls are refused.",
  "all programs with one deck: calls of image() with file names, bytes and file objects, mixed with changes of the files", ANY,
  ["elsie/boxtree/boxmixin.py:BoxMixin.image", "elsie/boxtree/boxmixin.py:BoxMixin._image_bitmap", "elsie/boxtree/boxmixin.py:BoxMixin._image_ora", "elsie/boxtree/boxmixin.py:BoxMixin._image_svg", "elsie/utils/files.py:read_helper"])
p("C126", "LaTeX formulas in their boxes",
  "latex(box, text, scale=s) shows the formula in the middle of the box, s times as large as LaTeX made it, with both backends; and the box has room for it.",
  "every formula, scale and box, every history of calls on the slide", ANY,
  ["elsie/ext/latex.py:latex", "elsie/ext/latex.py:_draw", "elsie/render/backends/svg/rcontext.py:SvgRenderingContext.draw_svg", "elsie/render/backends/cairo/rcontext.py:CairoRenderingContext.draw_svg"])
p("C127", "Working on a slide after it was shown",
  "A slide can be shown (rendered, or displayed in a notebook) between the calls that build it: what a page shows depends only on the calls, not on whether and when the slide was shown before.",
  "every sequence of calls, successful or not, with the slide shown any number of times in between; both backends", ANY,
  ["elsie/slides/slide.py:Slide.prepare", "elsie/boxtree/layout.py:Layout.set_rect", "elsie/text/textboxitem.py:TextBoxItem.__init__", "elsie/slides/slidedeck.py:SlideDeck.render"])
p("C128", "A deck made in the cells of a notebook",
  "With slides made by the decorator slide() in the cells of a notebook, where names are replaced: after running cells in any order and any number of times the deck has one slide per name, from the last run with this name, in the order of these runs; it is rendered as if only these runs had been made; a run whose function raises leaves the deck as it was; and below a cell exactly the pages of its slide are shown.",
  "every sequence of runs of cells, whose functions make any calls on their slide and may raise anywhere; any backend", ANY,
  ["elsie/slides/slidedeck.py:SlideDeck.slide", "elsie/slides/slidedeck.py:SlideDeck._apply_name_policy", "elsie/slides/slidedeck.py:SlideDeck.new_slide", "elsie/render/jupyter.py:get_slide_repr_steps"])
p("C129", "Highlighted code has the colours of its theme",
  "box.code(language, text) on a deck with a pygments theme draws, with either backend, every character of the code in the style of the code, changed exactly by the colour, bold and italic that the theme gives to the token the character belongs to.",
  "every code, every lexer (any tokens, any token types), every theme, every style of the code with priority 0", ANY,
  ["elsie/text/highlight.py:make_highlight_styles", "elsie/text/highlight.py:MyFormatter.format", "elsie/slides/slidedeck.py:SlideDeck.__init__", "elsie/boxtree/boxmixin.py:BoxMixin.code", "elsie/render/backends/cairo/text.py:get_text_and_attributes", "elsie/render/backends/svg/draw.py:draw_text"])
p("C130", "Styles in highlighted code win over the theme",
  "In box.code(language, text, use_styles=True) a character inside an inline style of the user has everything this style sets; characters outside, or inside a marker ~#name{...} only, have the colours of the theme.",
  "every code, lexer, theme, and inline styles that are not nested", ANY,
  ["elsie/text/textparser.py:tokens_merge", "elsie/text/textparser.py:_tokens_merge_helper", "elsie/boxtree/boxmixin.py:BoxMixin.code", "elsie/render/backends/cairo/text.py:get_text_and_attributes"])
p("C131", "With Cairo an inline box is around its section",
  "With the Cairo backend the box made by text.inline_box(name, n_th) has the left edge and the width of the characters that the n_th section `name` has in the line in which it begins, as they are drawn: for every alignment, scale and position of the text and whatever is before and behind the section.",
  "every text, every section that has characters in its first line, every table of styles, every font without kerning, every rectangle and scale", ANY,
  ["elsie/render/backends/cairo/text.py:compute_subtext_extents", "elsie/render/backends/cairo/text.py:get_byte_range", "elsie/render/backends/cairo/rcontext.py:CairoRenderingContext.compute_subtext_extents", "elsie/render/backends/cairo/rcontext.py:CairoRenderingContext.draw_text", "elsie/text/textboxitem.py:TextBoxItem.inline_box", "elsie/text/textboxitem.py:TextBoxItem._text_box_helper", "elsie/text/textparser.py:extract_line"])
p("C132", "With Cairo a view box only moves and zooms",
  "With the Cairo backend a page of a slide with a view box is the page of the same slide without it, moved and zoomed as a whole: every shape, outline, text and picture. If one of them cannot be made, neither can the other one.",
  "every sequence of calls on a slide, every page, every view box with positive width and height, every page size, PDF and PNG", ANY,
  ["elsie/render/backends/cairo/draw.py:apply_viewbox", "elsie/render/backends/cairo/rcontext.py:CairoRenderingContext.__init__", "elsie/render/backends/cairo/rcontext.py:CairoRenderingContext.draw_text", "elsie/render/backends/cairo/rcontext.py:CairoRenderingContext.draw_svg", "elsie/render/backends/cairo/text.py:build_layout", "elsie/render/backends/cairo/shapes.py:draw_path"])
p("C133", "The rows of a text are apart as reserved, with Cairo",
  "With the Cairo backend the base lines of the rows of a text are line_spacing * size apart, scaled with the text: as on an SVG page and as reserved in the layout.",
  "every text on every page, every style, every scale to fit and every view box, every font (as measured by Pango)", ANY,
  ["elsie/render/backends/cairo/text.py:build_layout", "elsie/render/backends/cairo/text.py:get_text_height", "elsie/render/backends/cairo/rcontext.py:CairoRenderingContext.draw_text", "elsie/text/textboxitem.py:TextBoxItem.render"])
p("C134", "Measured texts are not measured again",
  "Once Inkscape has measured a text, it is not asked for this measurement again: neither in this process nor in the next one with the same versions of Elsie and Inkscape after a render that saved the measurements.",
  "every history of sessions, measurements, prunings and saves", ANY,
  ["elsie/render/backends/svg/backend.py:InkscapeBackend.process_query", "elsie/render/backends/svg/backend.py:InkscapeBackend._load_query_cache", "elsie/render/backends/svg/backend.py:InkscapeBackend._save_query_cache", "elsie/render/backends/svg/backend.py:InkscapeBackend.prune_cache", "elsie/slides/slidedeck.py:SlideDeck.render"])
p("C135", "update_style is a shortcut",
  "`box.update_style(name, TextStyle(...))` is the same as getting the style by its name, assigning the given attributes to it and setting it under the same name: it succeeds in the same cases, and afterwards every box resolves every name to the same style and every text is drawn with the same styles.",
  "every deck reached by operations on styles, boxes and texts, every box, name and set of given attributes, every way of assigning them", ANY,
  ["elsie/text/stylecontainer.py:StyleContainer.update_style", "elsie/text/stylecontainer.py:StyleContainer.get_style", "elsie/text/stylecontainer.py:StyleContainer.set_style", "elsie/text/textstyle.py:TextStyle.update"])
p("C136", "Colours mean in Cairo what they mean in SVG",
  "A colour given as a keyword, as a hexadecimal value, as `rgb(...)` or as `hsl(...)` (the four forms of the user guide) is painted by the Cairo backend, in shapes and in texts, as the colour and opacity that it denotes in SVG.",
  "every string, every table of keywords that agrees with the one of SVG", ANY,
  ["elsie/render/backends/cairo/utils.py:get_rgb_color", "elsie/render/backends/cairo/utils.py:normalize_color", "elsie/render/backends/cairo/text.py:to_pango_color", "docs/userguide/text.md"])
p("C137", "Postprocessing adds to the slides and changes nothing else",
  "`render(slide_postprocessing=f)` calls `f` with the list of the boxes of the slides; afterwards every page of the slide at place `k` shows what was drawn on it before and then what `f` drew on the box at place `k`, and the slides and their order stay. In particular the page numbers of the cookbook are on every page, 90% of the page from its corner, and move nothing else.",
  "every history of calls on a deck and its slides, every function that makes calls on each slide according to its place, both backends", ANY,
  ["elsie/slides/slidedeck.py:SlideDeck.render", "elsie/slides/slide.py:Slide.box", "docs/cookbook/postprocessing.md"])
p("C138", "Dummy styles have no visual effect",
  "A text with sections `~#name{…}` looks as the text without them: it has the same characters, lines and distances of lines, and every character has the same font, size, colour, weight and slant; if the one is drawn, so is the other.",
  "every text with styles properly nested, every table of styles in which no style is named `#…`, every style of the text, both backends", ANY,
  ["elsie/render/backends/svg/draw.py:draw_text", "elsie/render/backends/cairo/text.py:get_text_and_attributes", "docs/userguide/syntax_highlighting.md"])
p("C139", "Boxes are as large as they need to be",
  "A box that neither fills nor depends on other boxes is exactly as large, with its paddings, as it needs, or as its percentage of the parent says, if that is more. It needs the size its argument asks for or, if that is more, what is inside with the paddings: the texts and images put into it, and its stacked boxes, whose needs add up along its direction, while across it the largest counts. Boxes placed by hand and drawings need no room.",
  "every sequence of calls on a slide that succeeds and whose rectangles can be computed, every box, both axes; images only in boxes without a size (the others are C100)", ANY,
  ["elsie/boxtree/layout.py:compute_size_request", "elsie/boxtree/layout.py:ensure_width", "elsie/boxtree/layout.py:set_image_size_request", "elsie/text/textboxitem.py:TextBoxItem", "docs/userguide/layout.md"])
p("C140", "Code shown step by step stays in place",
  "With the recipe `code_step` of the cookbook every step shows, at every place, the line that was asked for or nothing; lines that are seen in several steps do not move.",
  "every code without tabs and carriage returns, every list of steps that name lines of the code and have as many places, every lexer that honours its contract, every style and box", ANY,
  ["docs/cookbook/codestepping.md", "elsie/boxtree/boxmixin.py:code", "elsie/text/highlight.py:highlight_code", "elsie/text/textboxitem.py:render"])
p("C141", "Grids are regular",
  "The programs of the cookbook's page on grids do what the page says: all cells have the same size, the cells of a row and of a column are aligned and equally far apart, and the grid is in the middle of its box; with `show=f'{fragment}+'` the cells appear one after the other, row by row, without moving.",
  "every number of rows and columns, every size of the cells and of the gaps that are not negative, every box the grid is in, every text that fits into its cell, every page", ANY,
  ["docs/cookbook/grids.md", "elsie/boxtree/boxmixin.py:box", "elsie/boxtree/layout.py:compute_size_request", "elsie/boxtree/layout.py:set_rect", "elsie/boxtree/box.py:get_painters"])
p("C142", "Headers leave the rest of the page",
  "On a slide made with `init_slide` of the cookbook the header is at the top, as wide as the page and as high as asked for (or as its text needs), its text is at the left in the middle of the header, and the box that is returned is exactly the rest of the page, whatever is put into it.",
  "every size of the page, every percentage that is not 0, every distance and padding that is not negative, every text in the header, all calls on the box that is returned", ANY,
  ["docs/cookbook/headers.md", "elsie/boxtree/boxmixin.py:box", "elsie/boxtree/boxmixin.py:fbox", "elsie/boxtree/layout.py:compute_size_request", "elsie/boxtree/layout.py:set_rect"])
p("C143", "Placeholders fill their box and show the name",
  "`todo_placeholder(box, name)` shows `TODO` and below it the name that was given, or otherwise the name of the box, and its two frames are 3 and 23 inside of the box, however long the name is.",
  "every name, every box with or without a name in which no other box is stacked, all calls before and after, every measured size of the text", ANY,
  ["elsie/ext/todo.py:todo_placeholder", "elsie/boxtree/boxmixin.py:fbox", "elsie/boxtree/boxmixin.py:text"])
p("C144", "Which calls are accepted, and which slides can be laid out",
  "A sequence of calls raises no exception if and only if each call is on a box that exists, positions and sizes are of the documented forms, selectors are legal on a slide with the pages made so far, and `above` or `below` name something in the same box. After that the slide can be laid out if and only if every dynamic value refers only to boxes that are laid out before its own box; without dynamic values it always can.",
  "every sequence of calls of `box`, `overlay`, `text` and of drawing items on a slide, all arguments, every size of the page", ANY,
  ["elsie/boxtree/boxmixin.py:box",  "elsie/boxtree/box.py:add_child", "elsie/boxtree/layout.py:set_rect", "elsie/boxtree/value.py:parse", "elsie/boxtree/layout.py:x", "elsie/boxtree/lazy.py:eval", "elsie/slides/show.py:parse"])
p("C145", "Boxes are revealed in the order of the source",
  "With `next`, `next+`, `last` and `last+` boxes are revealed in the order of the source: the slide has one page more than there are calls with `next`, and a box is on the page of its fragment (with `+` from it on) if the box around it is. If only `next+` and `last+` are used, every item appears on one page and stays, in whatever boxes it is, and a page that shows a box shows all boxes with a selector before it in the source. If all selectors are open, no page loses anything that the page before it shows, and the order of painting stays the same.",
  "every sequence of calls on a slide whose boxes use these selectors, nested in any way; for the last sentence every open selector and pictures with fragments", ANY,
  ["elsie/slides/show.py:parse", "elsie/slides/show.py:is_visible", "elsie/boxtree/boxmixin.py:box", "elsie/slides/slide.py:current_fragment", "elsie/boxtree/box.py:get_painters"])
p("C146", "Calls on items are calls on their box",
  "Calling `box`, `text`, `rect`, `image` and the like on an item does the same as calling it on the box in which the item is, however long the chain of calls is, and dynamic values made with `x`, `y` or `p` on an item belong to its box. A program makes a slide if and only if the program with all calls on boxes makes the same slide; in particular the two snippets of the user guide do.",
  "every sequence of calls on boxes and items of a slide, with every argument", ANY,
  ["elsie/boxtree/boxitem.py:_get_box", "elsie/boxtree/box.py:_get_box", "elsie/boxtree/boxmixin.py:box", "elsie/boxtree/boxmixin.py:_create_simple_box_item", "elsie/boxtree/boxmixin.py:_text_helper", "elsie/boxtree/boxmixin.py:x"])
p("C147", "Sections of highlighted code are those written",
  "With `code(language, text, use_styles=True)` the sections that the user marked in the text begin in the shown code where they were written, in the same order, and there are no other sections with their names, so that `inline_box(name, n_th=n)` is for the n-th section written.",
  "every lexer, every code with balanced markup and every name of a style that is not one of the highlighting", ANY,
  ["elsie/boxtree/boxmixin.py:code", "elsie/text/textparser.py:tokens_merge", "elsie/text/textparser.py:_tokens_merge_helper"])
