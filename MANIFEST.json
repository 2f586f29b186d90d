{
 "claims": [
  {
   "property": "C01",
   "status": "proved",
   "theorems": [
    "Verif.Text.C01_parse_source"
   ],
   "note": ""
  },
  {
   "property": "C02",
   "status": "proved",
   "theorems": [
    "Verif.Text.C02_shown_is_source",
    "Verif.Text.C02_box_text"
   ],
   "note": ""
  },
  {
   "property": "C03",
   "status": "proved",
   "theorems": [
    "Verif.Text.C03_rejected_iff_unclosed",
    "Verif.Text.C03_box_text"
   ],
   "note": ""
  },
  {
   "property": "C04",
   "status": "proved",
   "theorems": [
    "Verif.Text.C04_parse_normal",
    "Verif.Text.C04_normalize"
   ],
   "note": ""
  },
  {
   "property": "C05",
   "status": "proved",
   "theorems": [
    "Verif.Text.C05_verbatim",
    "Verif.Text.C05_box_text"
   ],
   "note": ""
  },
  {
   "property": "C06",
   "status": "proved",
   "theorems": [
    "Verif.Text.C06_number_of_lines",
    "Verif.Text.C06_number_of_lines_parsed"
   ],
   "note": ""
  },
  {
   "property": "C07",
   "status": "partial",
   "theorems": [
    "Verif.Text.C07_doubled_escape_false",
    "Verif.Text.C07_doubled_escape_partial"
   ],
   "note": "The documented behaviour does not hold: the parser has no escape for the escape character. The negation is proved, and what the parser does instead for every surrounding text."
  },
  {
   "property": "C08",
   "status": "proved",
   "theorems": [
    "Verif.Text.C08_rename",
    "Verif.Text.C08_box_text"
   ],
   "note": ""
  },
  {
   "property": "C09",
   "status": "proved",
   "theorems": [
    "Verif.Text.C09_line_numbers",
    "Verif.Text.C09_code"
   ],
   "note": ""
  },
  {
   "property": "C10",
   "status": "proved",
   "theorems": [
    "Verif.Text.C10_extract_line"
   ],
   "note": ""
  },
  {
   "property": "C11",
   "status": "proved",
   "theorems": [
    "Verif.Text.C11_merge_text"
   ],
   "note": ""
  },
  {
   "property": "C12",
   "status": "partial",
   "theorems": [
    "Verif.Text.C12_merge_styles_false",
    "Verif.Text.C12_merge_styles_partial",
    "Verif.Text.C12_merge_nested_partial"
   ],
   "note": "False of the code: reopened styles come back in reversed order when a token boundary cuts through two nested styles. Negation proved with a witness; the property is proved when neither markup nests styles, and when only the user's markup nests them and no token of the highlighting cuts two styles that began inside it."
  },
  {
   "property": "C13",
   "status": "partial",
   "theorems": [
    "Verif.Text.C13_merge_rejects_false",
    "Verif.Text.C13_merge_rejects_partial"
   ],
   "note": "False of the code: the merge compares only lengths and line breaks, not letters. Negation proved; the exact condition under which the merge is rejected is proved instead."
  },
  {
   "property": "C14",
   "status": "proved",
   "theorems": [
    "Verif.Text.C14_highlight",
    "Verif.Text.C14_code"
   ],
   "note": ""
  },
  {
   "property": "C15",
   "status": "partial",
   "theorems": [
    "Verif.Text.C15_code_plain",
    "Verif.Text.C15_code_highlight",
    "Verif.Text.C15_code_false",
    "Verif.Text.C15_code_styles_partial"
   ],
   "note": "False with a language and use_styles: pygments strips line breaks, so text that starts or ends with a line break inside a style raises. Negation proved; everything else proved for every lexer honouring the stated pygments contract, nested styles included unless two of them overlap and begin inside the same token (where C12 is false)."
  },
  {
   "property": "C16",
   "status": "partial",
   "theorems": [
    "Verif.Text.C16_trim_indent_false",
    "Verif.Text.C16_trim_indent_partial",
    "Verif.Text.C16_idempotent_partial",
    "Verif.Text.C16_blank_rejected",
    "Verif.Chars.C16_line_ends",
    "Verif.Chars.C20_white_space"
   ],
   "note": "Idempotence is false (a final line break is lost at each application). Proved: exactly the common indentation is removed; idempotent when the last line is not blank."
  },
  {
   "property": "C17",
   "status": "proved",
   "theorems": [
    "Verif.Text.C17_inline_box"
   ],
   "note": ""
  },
  {
   "property": "C18",
   "status": "proved",
   "theorems": [
    "Verif.Text.C18_line_boxes"
   ],
   "note": ""
  },
  {
   "property": "C19",
   "status": "proved",
   "theorems": [
    "Verif.Show.C19_selector_meaning",
    "Verif.Show.C19_default_and_number",
    "Verif.Slide.C19_box",
    "Verif.Slide.C19_kept",
    "Verif.Chars.C20_white_space"
   ],
   "note": ""
  },
  {
   "property": "C20",
   "status": "proved",
   "theorems": [
    "Verif.Show.C20_only_legal_selectors",
    "Verif.Show.C20_unambiguous",
    "Verif.Chars.C20_white_space"
   ],
   "note": ""
  },
  {
   "property": "C21",
   "status": "proved",
   "theorems": [
    "Verif.Slide.C21_page_count"
   ],
   "note": ""
  },
  {
   "property": "C22",
   "status": "proved",
   "theorems": [
    "Verif.Slide.C22_next",
    "Verif.Slide.C22_last",
    "Verif.Slide.C22_never_decreases"
   ],
   "note": ""
  },
  {
   "property": "C23",
   "status": "proved",
   "theorems": [
    "Verif.Slide.C23_mentioned_fragment_has_page",
    "Verif.Slide.C23_no_box_lost"
   ],
   "note": ""
  },
  {
   "property": "C24",
   "status": "proved",
   "theorems": [
    "Verif.Slide.C24_visible_items",
    "Verif.Slide.C24_debug_adds_frames"
   ],
   "note": ""
  },
  {
   "property": "C25",
   "status": "proved",
   "theorems": [
    "Verif.Slide.C25_paint_order",
    "Verif.Slide.C25_levels",
    "Verif.Slide.C19_kept",
    "Verif.Chars.C20_white_space"
   ],
   "note": ""
  },
  {
   "property": "C26",
   "status": "proved",
   "theorems": [
    "Verif.Slide.C26_show_no_influence_on_layout"
   ],
   "note": ""
  },
  {
   "property": "C27",
   "status": "proved",
   "theorems": [
    "Verif.Slide.C27_placement",
    "Verif.Slide.C27_bad_placement",
    "Verif.Slide.C27_layout"
   ],
   "note": ""
  },
  {
   "property": "C28",
   "status": "partial",
   "theorems": [
    "Verif.Slide.C28_failed_box_false",
    "Verif.Slide.C28_ghost_layout",
    "Verif.Slide.C28_failed_box_partial"
   ],
   "note": "False: a box() that fails on show/above/below leaves its layout behind and may already have raised the current fragment. Negation and the visible effect proved; page count and painted items proved unchanged, and nothing changes if the size arguments are wrong."
  },
  {
   "property": "C29",
   "status": "proved",
   "theorems": [
    "Verif.Layout.C29_stacked",
    "Verif.Slide.C29_calls"
   ],
   "note": ""
  },
  {
   "property": "C30",
   "status": "proved",
   "theorems": [
    "Verif.Layout.C30_centred"
   ],
   "note": ""
  },
  {
   "property": "C31",
   "status": "proved",
   "theorems": [
    "Verif.Layout.C31_fill"
   ],
   "note": ""
  },
  {
   "property": "C32",
   "status": "partial",
   "theorems": [
    "Verif.Layout.C32_minimal_size_false",
    "Verif.Layout.C32_minimal_size_partial"
   ],
   "note": "False for fill: a box with height='fill' can end up smaller than its content. Negation proved by a concrete tree; proved for every axis on which the box does not fill and has no dynamic size."
  },
  {
   "property": "C33",
   "status": "proved",
   "theorems": [
    "Verif.Layout.C33_inside"
   ],
   "note": ""
  },
  {
   "property": "C34",
   "status": "proved",
   "theorems": [
    "Verif.Layout.C34_padding"
   ],
   "note": ""
  },
  {
   "property": "C35",
   "status": "partial",
   "theorems": [
    "Verif.Layout.C35_explicit_positions_false",
    "Verif.Layout.C35_explicit_positions_partial",
    "Verif.Layout.C35_align_meaning"
   ],
   "note": "False: in a horizontal box relative y values are computed from the parent's width (layout.py:165). Negation proved; everything else proved."
  },
  {
   "property": "C36",
   "status": "partial",
   "theorems": [
    "Verif.Layout.C36_dynamic_positions_false",
    "Verif.Layout.C36_dynamic_positions_partial"
   ],
   "note": "False for references to boxes laid out later (AttributeError). Negation proved; proved for references to earlier or enclosing boxes."
  },
  {
   "property": "C37",
   "status": "partial",
   "theorems": [
    "Verif.Layout.C37_render_twice_false",
    "Verif.Layout.C37_render_twice_partial"
   ],
   "note": "False for scale_to_fit texts: the layout callback scales the already scaled size, so the second render draws with scale 1. Negation proved; rectangles, text sizes and all other scales proved stable."
  },
  {
   "property": "C38",
   "status": "partial",
   "theorems": [
    "Verif.Layout.C38_size_strings_false",
    "Verif.Layout.C38_size_strings_accepted",
    "Verif.Layout.C38_size_strings_partial"
   ],
   "note": "False: 'fill(3))' and strings with a final line break are accepted. Negation proved; documented strings proved to mean what is documented, and nothing else is accepted up to these two deviations."
  },
  {
   "property": "C39",
   "status": "partial",
   "theorems": [
    "Verif.Layout.C39_position_strings_false",
    "Verif.Layout.C39_position_strings_accepted",
    "Verif.Layout.C39_position_strings_partial"
   ],
   "note": "False: a final line break is accepted. Negation proved; documented strings proved to mean what is documented, and nothing else is accepted up to the line break."
  },
  {
   "property": "C40",
   "status": "proved",
   "theorems": [
    "Verif.Layout.C40_translation"
   ],
   "note": ""
  },
  {
   "property": "C41",
   "status": "proved",
   "theorems": [
    "Verif.Layout.C41_overlay"
   ],
   "note": ""
  },
  {
   "property": "C42",
   "status": "proved",
   "theorems": [
    "Verif.Layout.C42_image"
   ],
   "note": ""
  },
  {
   "property": "C43",
   "status": "partial",
   "theorems": [
    "Verif.Style.C43_inheritance_false",
    "Verif.Style.C43_inheritance_partial"
   ],
   "note": "False for priority: its default is 0, not None, so composing always overwrites it. Negation proved; proved for every other attribute."
  },
  {
   "property": "C44",
   "status": "proved",
   "theorems": [
    "Verif.Style.C44_compose_assoc"
   ],
   "note": ""
  },
  {
   "property": "C45",
   "status": "proved",
   "theorems": [
    "Verif.Style.C45_set_style",
    "Verif.Style.C45_update_style",
    "Verif.Style.C45_new_box"
   ],
   "note": ""
  },
  {
   "property": "C46",
   "status": "proved",
   "theorems": [
    "Verif.Style.C46_get_style_private"
   ],
   "note": ""
  },
  {
   "property": "C47",
   "status": "partial",
   "theorems": [
    "Verif.Style.C47_fixed_false",
    "Verif.Style.C47_fixed_partial"
   ],
   "note": "False: with the default base, set_style stores the caller's object itself. Negation proved; with another base, and for update_style, later changes of the argument are proved to have no effect."
  },
  {
   "property": "C48",
   "status": "proved",
   "theorems": [
    "Verif.Deck.C48_no_shared_names",
    "Verif.Deck.C48_new_slide",
    "Verif.Deck.C48_failure",
    "Verif.Deck.C48_duplicate",
    "Verif.Deck.C48_accepted"
   ],
   "note": ""
  },
  {
   "property": "C49",
   "status": "partial",
   "theorems": [
    "Verif.Deck.C49_pdf_false",
    "Verif.Deck.C49_pdf_partial"
   ],
   "note": "False: get_slide_by_name reads .name of every entry, which an external PDF does not have. Negation proved, and the exact condition under which a fresh name is accepted."
  },
  {
   "property": "C50",
   "status": "proved",
   "theorems": [
    "Verif.Deck.C50_pages_in_order",
    "Verif.Deck.C50_render_succeeds"
   ],
   "note": ""
  },
  {
   "property": "C51",
   "status": "proved",
   "theorems": [
    "Verif.Deck.C51_grid",
    "Verif.Deck.C51_cells_disjoint",
    "Verif.Deck.C51_render"
   ],
   "note": ""
  },
  {
   "property": "C52",
   "status": "partial",
   "theorems": [
    "Verif.Deck.C52_pdf_order_false",
    "Verif.Deck.C52_pdf_order_partial"
   ],
   "note": "False: a PDF is emitted before the slides still collected for the current grid. Negation proved; nothing is lost, slides and PDFs each keep their order, and the exact condition for the whole order to be kept."
  },
  {
   "property": "C53",
   "status": "partial",
   "theorems": [
    "Verif.Deck.C53_rows_columns_false",
    "Verif.Deck.C53_rows_columns_partial"
   ],
   "note": "False: the first component is the number of columns. Negation proved, and the actual meaning of the components."
  },
  {
   "property": "C54",
   "status": "partial",
   "theorems": [
    "Verif.Deck.C54_debug_files_false",
    "Verif.Deck.C54_debug_files_partial"
   ],
   "note": "False under policy replace: a replaced slide frees an index that is given out twice. Negation proved; proved for ignore and unique."
  },
  {
   "property": "C55",
   "status": "proved",
   "theorems": [
    "Verif.Xml.C55_well_formed",
    "Verif.Xml.C55_accepts"
   ],
   "note": "Against an independent XML reader (Spec/Xml). The reader covers elements, attributes, text and the predefined entities; no comments, CDATA or declarations. The raw method of the writer is excluded."
  },
  {
   "property": "C56",
   "status": "partial",
   "theorems": [
    "Verif.Xml.C56_text_false",
    "Verif.Xml.C56_text_partial"
   ],
   "note": "False: characters that XML forbids (e.g. a form feed) are written as they are, and a carriage return is read as a line feed. Negation proved; the partial theorem gives the exact set of texts that survive."
  },
  {
   "property": "C57",
   "status": "partial",
   "theorems": [
    "Verif.Xml.C57_attribute_false",
    "Verif.Xml.C57_attribute_partial"
   ],
   "note": "False: an apostrophe ends the attribute. Negation proved; the partial theorem says exactly when a value is read back, and that a value with an apostrophe never is."
  },
  {
   "property": "C58",
   "status": "partial",
   "theorems": [
    "Verif.Xml.C58_drawn_false",
    "Verif.Xml.C58_drawn_partial",
    "Verif.Xml.C58_break_in_marker_fails"
   ],
   "note": "False: a line break inside a style that is not applied (a #name section, or one of lower priority) makes drawing raise. Negation proved, and that it fails for every text with a line break inside a section whose name is not in the table; proved for texts whose line breaks are inside styles that are certainly applied."
  },
  {
   "property": "C59",
   "status": "partial",
   "theorems": [
    "Verif.Xml.C59_priority_svg_false",
    "Verif.Xml.C59_priority_svg_partial",
    "Verif.Cairo.C60_ranges"
   ],
   "note": "False for SVG: the priority of a closed style is not forgotten if the style around it is not applied. Negation proved; proved for SVG when styles applied directly inside unapplied ones have the priority in force; proved without restriction for Cairo."
  },
  {
   "property": "C60",
   "status": "proved",
   "theorems": [
    "Verif.Cairo.C60_ranges",
    "Verif.Cairo.C60_text"
   ],
   "note": "Ranges are recorded with their style; the translation of a style into Pango attributes is not modelled."
  },
  {
   "property": "C61",
   "status": "partial",
   "theorems": [
    "Verif.Cairo.C61_section_false",
    "Verif.Cairo.C61_section_partial",
    "Verif.Cairo.C61_outermost_partial"
   ],
   "note": "False for nested sections: the range ends where the outermost section ends. Negation proved, the exact result for every section, and the claim for outermost sections."
  },
  {
   "property": "C62",
   "status": "partial",
   "theorems": [
    "Verif.Image.C62_prune_false",
    "Verif.Image.C62_prune_partial",
    "Verif.Image.C62_failure"
   ],
   "note": "False: lxml removes the text after an element together with the element. Negation proved; the exact result for every tree, the exact condition under which it is the pruned tree, and that the documents in memory (deepcopy is modelled with object identities) are unchanged."
  },
  {
   "property": "C63",
   "status": "partial",
   "theorems": [
    "Verif.Image.C63_schedule_false",
    "Verif.Image.C63_schedule_partial",
    "Verif.Image.C63_single",
    "Verif.Image.C63_enough_pages"
   ],
   "note": "False for images whose labels need only one fragment: they are shown unfiltered in all later fragments. Negation proved; proved for every other case, the exact result for that case, and enough pages in all cases."
  },
  {
   "property": "C64",
   "status": "proved",
   "theorems": [
    "Verif.Ora.C64_layers",
    "Verif.Ora.C64_succeeds"
   ],
   "note": "About the text of the SVG as read by the XML reader of Spec/Xml. Reading the archive, cropping and encoding the pictures are not modelled."
  },
  {
   "property": "C65",
   "status": "proved",
   "theorems": [
    "Verif.CairoDraw.C65_viewbox"
   ],
   "note": "Rational arithmetic."
  },
  {
   "property": "C66",
   "status": "proved",
   "theorems": [
    "Verif.CairoDraw.C66_quadratic"
   ],
   "note": "Rational arithmetic; on a model of the Cairo context."
  },
  {
   "property": "C67",
   "status": "partial",
   "theorems": [
    "Verif.CairoDraw.C67_smooth_false",
    "Verif.CairoDraw.C67_groups_false",
    "Verif.CairoDraw.C67_smooth_partial"
   ],
   "note": "False: after an S command the wrong control point is remembered, and only the first group of arguments of a command is drawn. Negations proved; proved for paths with one group per command in which no S follows an S."
  },
  {
   "property": "C68",
   "status": "proved",
   "theorems": [
    "Verif.CairoDraw.C68_rounded"
   ],
   "note": "Non-negative radii."
  },
  {
   "property": "C69",
   "status": "proved",
   "theorems": [
    "Verif.Arrow.C69_resize",
    "Verif.Arrow.C69_move_end"
   ],
   "note": "Real arithmetic."
  },
  {
   "property": "C70",
   "status": "proved",
   "theorems": [
    "Verif.Cache.C70_finished"
   ],
   "note": "Every interleaving of any number of calls, at the granularity of accesses to shared state."
  },
  {
   "property": "C71",
   "status": "partial",
   "theorems": [
    "Verif.Cache.C71_once_false",
    "Verif.Cache.C71_error_false",
    "Verif.Cache.C71_overwritten_false",
    "Verif.Cache.C71_once_partial"
   ],
   "note": "False: in_progress is set after the lock is released, so two calls can both run the constructor; one then fails with a KeyError, and a file is returned while it is rewritten. Negations proved; proved (at most once, no failures, no deadlock) for every schedule that avoids that gap."
  },
  {
   "property": "C72",
   "status": "partial",
   "theorems": [
    "Verif.Cache.C72_retry_false",
    "Verif.Cache.C72_retry_partial"
   ],
   "note": "False: after an exception the file stays in in_progress and all later calls block for ever. Negation proved; other files are not affected, and the exception reaches the caller."
  },
  {
   "property": "C73",
   "status": "partial",
   "theorems": [
    "Verif.Cache.C73_reuse_false",
    "Verif.Cache.C73_get_false",
    "Verif.Cache.C73_again_false",
    "Verif.Cache.C73_prune_partial"
   ],
   "note": "False: removed files stay in cache_files, so asking for one again gives a missing file and pruning again raises FileNotFoundError. Negations proved; the first pruning of a session is proved exact, and all requests but those for removed files keep working."
  },
  {
   "property": "C74",
   "status": "partial",
   "theorems": [
    "Verif.Cache.C74_crash_false",
    "Verif.Cache.C74_crash_partial",
    "Verif.Cache.C74_queries_false",
    "Verif.Cache.C74_queries_partial"
   ],
   "note": "False: files are written in place, so a half-written file is used by the next session. Negation proved; all other requests are proved right, and the next pruning removes the file if it is not asked for. The file of the query cache has the same problem, with worse consequences: half a JSON text cannot be read, and no process can be started until the file is deleted (negation proved, and that otherwise the old or the new measurements are there)."
  },
  {
   "property": "C75",
   "status": "proved",
   "theorems": [
    "Verif.Cache.C75_current"
   ],
   "note": "Measurements are a function of the versions and the query."
  },
  {
   "property": "C76",
   "status": "partial",
   "theorems": [
    "Verif.Cache.C76_saved_false",
    "Verif.Cache.C76_saved_partial"
   ],
   "note": "False: a second render saves an empty cache. Negation proved; after a default render the file has exactly the queries since the previous pruning render or the start."
  },
  {
   "property": "C77",
   "status": "proved",
   "theorems": [
    "Verif.Cache.C77_names"
   ],
   "note": "Assumes that the hash has no collisions and no full stop in its results."
  },
  {
   "property": "C78",
   "status": "proved",
   "theorems": [
    "Verif.ExtList.C78_counters",
    "Verif.ExtList.C78_labels"
   ],
   "note": "Histories of calls on a family of builders."
  },
  {
   "property": "C79",
   "status": "partial",
   "theorems": [
    "Verif.ExtList.C79_indent_false",
    "Verif.ExtList.C79_indent_partial",
    "Verif.ExtList.C79_order_partial"
   ],
   "note": "False: the indent of the enclosing lists is added again at every level, so items at depth k are indented by d*k*(k+3)/2. Negation proved, the exact indent is proved, on the layout model; deeper lists are always indented further."
  },
  {
   "property": "C80",
   "status": "proved",
   "theorems": [
    "Verif.Markdown.C80_inline"
   ],
   "note": "Composed with the parser of inline styles."
  },
  {
   "property": "C81",
   "status": "proved",
   "theorems": [
    "Verif.Jupyter.C81_notebook",
    "Verif.Jupyter.C81_forward",
    "Verif.Jupyter.C81_back",
    "Verif.Jupyter.C81_single"
   ],
   "note": "On a model of the page and of the script."
  },
  {
   "property": "C82",
   "status": "partial",
   "theorems": [
    "Verif.SvgUtils.C82_two_false",
    "Verif.SvgUtils.C82_prefix_false",
    "Verif.SvgUtils.C82_colour_false",
    "Verif.SvgUtils.C82_reference_partial",
    "Verif.SvgUtils.C82_other_partial",
    "Verif.SvgUtils.C82_document_partial"
   ],
   "note": "False: of two references in an attribute one is lost, and an id that is the beginning of another name (even of a colour) and comes later breaks it. Negations proved; proved for documents without these. Text of style elements is not treated by the code and not modelled."
  },
  {
   "property": "C83",
   "status": "partial",
   "theorems": [
    "Verif.Inkscape.C83_end_false",
    "Verif.Inkscape.C83_end_exact",
    "Verif.Inkscape.C83_prompt_partial"
   ],
   "note": "False: without a prompt (Inkscape ended) the loop never ends. Negation proved; with a prompt the reply and the rest are proved exact."
  },
  {
   "property": "C84",
   "status": "partial",
   "theorems": [
    "Verif.CairoDraw.C84_independent_false",
    "Verif.CairoDraw.C84_text_false",
    "Verif.CairoDraw.C84_independent_partial"
   ],
   "note": "False: the dashes of a stroked ellipse stay on, and the point where a text was drawn is joined to the next ellipse by a line. Negations proved; proved when no dashed ellipse, text or picture was drawn before, and in other stated cases."
  },
  {
   "property": "C85",
   "status": "partial",
   "theorems": [
    "Verif.CairoDraw.C85_corners_false",
    "Verif.CairoDraw.C85_corners_partial"
   ],
   "note": "False: two of the four corners use a misplaced control point. Negation proved; two corners are within 0.1 % and the other two within 10 % of the ellipse (in its equation)."
  },
  {
   "property": "C86",
   "status": "proved",
   "theorems": [
    "Verif.CairoDraw.C86_ellipse"
   ],
   "note": "On a model of the Cairo context."
  },
  {
   "property": "C87",
   "status": "proved",
   "theorems": [
    "Verif.Arrow.C87_head",
    "Verif.Arrow.C87_line",
    "Verif.Arrow.C87_line_drawn",
    "Verif.Arrow.C87_degrees"
   ],
   "note": "Real arithmetic."
  },
  {
   "property": "C88",
   "status": "partial",
   "theorems": [
    "Verif.CairoDraw.C88_end_arrow_false",
    "Verif.CairoDraw.C88_end_arrow_partial"
   ],
   "note": "False for T: the arrow follows the chord. Negation proved; proved for C, S and Q."
  },
  {
   "property": "C89",
   "status": "partial",
   "theorems": [
    "Verif.CairoDraw.C89_checked_false",
    "Verif.CairoDraw.C89_checked_partial"
   ],
   "note": "False: a command without points is accepted and fails in Cairo. Negation proved; proved for commands with points."
  },
  {
   "property": "C90",
   "status": "proved",
   "theorems": [
    "Verif.Cache.C90_contents",
    "Verif.Cache.C90_failing_needed",
    "Verif.Cache.C90_bytes_needed"
   ],
   "note": "Assumes a hash without collisions, that no version with a slash is the beginning of another, that failing constructors leave no file, and that constructors do the same for a text and for its bytes (both shown to be needed). Newline translation of text files is not modelled."
  },
  {
   "property": "C91",
   "status": "proved",
   "theorems": [
    "Verif.ExtList.C91_arguments"
   ],
   "note": ""
  },
  {
   "property": "C92",
   "status": "partial",
   "theorems": [
    "Verif.Markdown.C92_dropped_false",
    "Verif.Markdown.C92_tilde_false",
    "Verif.Markdown.C92_bracket_false",
    "Verif.Markdown.C92_shown_partial"
   ],
   "note": "False: code spans and other unsupported elements are dropped with their text, and the escape character and closing brackets of the text are taken as Elsie markup. Negations proved; proved for trees of the supported elements whose text has none of these characters."
  },
  {
   "property": "C93",
   "status": "proved",
   "theorems": [
    "Verif.Inkscape.C93_answers"
   ],
   "note": ""
  },
  {
   "property": "C94",
   "status": "proved",
   "theorems": [
    "Verif.SvgUtils.C94_ids"
   ],
   "note": "Assumes that the hashes of the two snippets differ."
  },
  {
   "property": "C95",
   "status": "partial",
   "theorems": [
    "Verif.SvgUtils.C95_size_false",
    "Verif.SvgUtils.C95_size_partial"
   ],
   "note": "False: inches, picas and quarter millimetres are taken as pixels. Negation proved; proved for px, pt, mm, cm and no unit, to one part in 100000."
  },
  {
   "property": "C96",
   "status": "partial",
   "theorems": [
    "Verif.SvgDraw.C96_shapes_false",
    "Verif.SvgDraw.C96_width_false",
    "Verif.SvgDraw.C96_shapes_partial",
    "Verif.SvgDraw.C96_rejects"
   ],
   "note": "False: a radius of zero next to a nonzero one is left out, so SVG rounds both ways, and an outline of width zero is drawn with width 1. Negations proved; everything else is proved."
  },
  {
   "property": "C97",
   "status": "partial",
   "theorems": [
    "Verif.Backends.C97_radius_false",
    "Verif.Backends.C97_polygon_false",
    "Verif.Backends.C97_dash_false",
    "Verif.Backends.C97_flat_false",
    "Verif.Backends.C97_shapes_partial"
   ],
   "note": "False: a radius of zero next to a nonzero one, outlines of polygons (not closed with Cairo, so the first corner is not joined), dash patterns with commas (ValueError with Cairo), and ellipses and bitmaps without width or height (cairo.Error and ZeroDivisionError with Cairo). Negations proved; proved for the other shapes and bitmaps, with rounded corners compared by their ends, and for polygons up to the last join."
  },
  {
   "property": "C98",
   "status": "partial",
   "theorems": [
    "Verif.Deck.C98_policy_false",
    "Verif.Deck.C98_policy_partial"
   ],
   "note": "False: \"auto\" outside Jupyter ignores names, while it is documented as \"unique\". Negation proved; every other value has the documented meaning, and no other value is accepted."
  },
  {
   "property": "C99",
   "status": "partial",
   "theorems": [
    "Verif.Slide.C99_fits_false",
    "Verif.Slide.C99_fits_partial"
   ],
   "note": "False for sizes given as fill (the box gets what is left, whatever its content needs). Negation proved; proved for every other size, for all histories of calls. Missing: fill, dynamic sizes, and content put directly on the slide."
  },
  {
   "property": "C100",
   "status": "partial",
   "theorems": [
    "Verif.Slide.C100_image_false",
    "Verif.Slide.C100_image_partial"
   ],
   "note": "False for a width in percent: the minimal width is 0, so the image requests height 0 and is drawn over the neighbours. Negation proved; proved for sizes given as numbers, for all histories of calls."
  },
  {
   "property": "C101",
   "status": "proved",
   "theorems": [
    "Verif.Style.C101_get_style",
    "Verif.Style.C101_text_style"
   ],
   "note": "For all histories on the heap model; get_style is characterised exactly (when it is accepted and what it returns)."
  },
  {
   "property": "C102",
   "status": "proved",
   "theorems": [
    "Verif.TextItem.C102_lines"
   ],
   "note": "The page is read back with the XML reader and a small reader of SVG text positions and transformations. Restricted, as stated, to the texts C58 proves to be drawn."
  },
  {
   "property": "C103",
   "status": "proved",
   "theorems": [
    "Verif.TextQuery.C103_whole",
    "Verif.TextQuery.C103_inline"
   ],
   "note": "The documents are read back with the XML reader. Whole texts are restricted, as C58, to those that can be drawn; what Inkscape answers is external."
  },
  {
   "property": "C104",
   "status": "proved",
   "theorems": [
    "Verif.Slide.C104_without",
    "Verif.Slide.C104_added"
   ],
   "note": "Leaving the box out of a finished slide, and adding and filling it in a history of calls."
  },
  {
   "property": "C105",
   "status": "proved",
   "theorems": [
    "Verif.Layout.C105_sizes",
    "Verif.Layout.C105_sbox",
    "Verif.Layout.C105_fbox"
   ],
   "note": "Exact sizes; fill along the main axis is C31."
  },
  {
   "property": "C106",
   "status": "proved",
   "theorems": [
    "Verif.Slide.C106_page"
   ],
   "note": "The pages, levels and the order are described from the list of calls alone, without the box tree."
  },
  {
   "property": "C107",
   "status": "proved",
   "theorems": [
    "Verif.Scene.C107_points",
    "Verif.Scene.C107_calls"
   ],
   "note": "Points are described by a relation; the theorem says that unpacking and evaluating succeeds exactly with the described point."
  },
  {
   "property": "C108",
   "status": "proved",
   "theorems": [
    "Verif.Scene.C108_page",
    "Verif.Scene.C108_room"
   ],
   "note": "From the list of calls to the XML that is read back. Restricted, as stated, to texts within C58 and shapes within C96. The document of an SVG or ORA picture on a page is a parameter (C62, C63 say what it is), supposed to be one element; arrows are not in this model (see C88)."
  },
  {
   "property": "C109",
   "status": "proved",
   "theorems": [
    "Verif.Slide.C109_growth"
   ],
   "note": "For the items; debug boxes are left out."
  },
  {
   "property": "C110",
   "status": "proved",
   "theorems": [
    "Verif.Slide.C110_scaling"
   ],
   "note": "Functions in dynamic positions work on the scaled values, so .add(10) becomes .add(10 k)."
  },
  {
   "property": "C111",
   "status": "partial",
   "theorems": [
    "Verif.Slide.C111_axes_false",
    "Verif.Slide.C111_axes_partial"
   ],
   "note": "False: a position in percent across a row is computed from the width of the row instead of its height (layout.py:165), so a box with y='[100%]' on a 200 x 100 slide is at y = 190. Proved for layouts without percentages in that place."
  },
  {
   "property": "C112",
   "status": "partial",
   "theorems": [
    "Verif.Scene.C112_viewbox_false",
    "Verif.Scene.C112_nothing_false",
    "Verif.Scene.C112_page_partial"
   ],
   "note": "False: SVG pictures ignore the view box of the slide (they are drawn in a new context), and a picture scaled to nothing is drawn with its own size. Negations proved; proved for everything else within the parts of C84 and C97 that hold. Where Pango puts the characters of a text, and the rows after the first, is left open."
  },
  {
   "property": "C113",
   "status": "proved",
   "theorems": [
    "Verif.Slide.C113_page"
   ],
   "note": "In terms of calls; with C35 and C105 for the boxes inside."
  },
  {
   "property": "C114",
   "status": "proved",
   "theorems": [
    "Verif.Book.C114_svg",
    "Verif.Book.C114_cairo"
   ],
   "note": "The hypotheses about the drawings are those of C108 and C112."
  },
  {
   "property": "C115",
   "status": "proved",
   "theorems": [
    "Verif.Book.C115_svg",
    "Verif.Book.C115_cairo"
   ],
   "note": "With Cairo within the part of C112 that holds. Without debug_boxes and slide_postprocessing."
  },
  {
   "property": "C116",
   "status": "proved",
   "theorems": [
    "Verif.Book.C116_grid",
    "Verif.Book.C116_deck"
   ],
   "note": "The columns are the first component of slides_per_page (C53); where embedded PDFs are among the documents is C52."
  },
  {
   "property": "C117",
   "status": "partial",
   "theorems": [
    "Verif.Book.C117_again_false",
    "Verif.Book.C117_render_partial"
   ],
   "note": "False: if there was an unused file of an earlier session in the cache directory, the second render() of a session raises FileNotFoundError (see C73). Negation proved; everything else is proved for renders after any requests, if nothing was pruned in the session yet or the directory had no cache files when it began. Inkscape, PyPDF2 and pdfunite are not modelled: what Inkscape exports is a function of the document."
  },
  {
   "property": "C118",
   "status": "partial",
   "theorems": [
    "Verif.Book.C118_proportions_false",
    "Verif.Book.C118_pptx_partial"
   ],
   "note": "False: the picture is stretched to the slides of the template, so a 16:9 deck is distorted on the 4:3 slides of the standard template. Negation proved; everything else is proved within the part of C117 that holds, and the proportions if those of the template are the same. python-pptx is not modelled."
  },
  {
   "property": "C119",
   "status": "partial",
   "theorems": [
    "Verif.Markdown.C119_order_false",
    "Verif.Markdown.C119_quotes_false",
    "Verif.Markdown.C119_zero_false",
    "Verif.Markdown.C119_blocks_partial"
   ],
   "note": "False: a list in an item is put below the whole item, also when the item goes on after the list; it is not in a quotation that is in the item; an ordered list in an item cannot start at 0. Negations proved; proved for all documents in which lists come last in items and are not in a quotation there. The Markdown parser (marko) is not modelled."
  },
  {
   "property": "C120",
   "status": "partial",
   "theorems": [
    "Verif.Scene.C120_line_boxes_false",
    "Verif.Scene.C120_line_boxes_partial",
    "Verif.Scene.C120_inline_boxes"
   ],
   "note": "False in a box with horizontal=True: width='fill' of a box that has a position is there a share of the free width, and 0 if no other box fills. Negation proved; proved for texts in columns, and in rows for everything but the width of line boxes; inline boxes without restriction. The measurements are those of the backend (C103)."
  },
  {
   "property": "C121",
   "status": "partial",
   "theorems": [
    "Verif.Style.C121_center_false",
    "Verif.Style.C121_opacity_false",
    "Verif.Style.C121_assign_partial",
    "Verif.Style.C121_new_partial",
    "Verif.Style.C121_session_partial",
    "Verif.Style.C121_typed"
   ],
   "note": "False: the docstring allows align='center', which is rejected, and restricts the opacity to 0 to 1, but all numbers are accepted. Negations proved; everything else is proved, with the alignments of the user guide and any opacity. Attributes whose names begin with an underscore (the slots) are not for users and left out."
  },
  {
   "property": "C122",
   "status": "proved",
   "theorems": [
    "Verif.Scene.C122_page"
   ],
   "note": "For the drawings of C108, names of XML characters and default styles with a line spacing. The texts of the labels are read back; their fonts and colours are not."
  },
  {
   "property": "C123",
   "status": "partial",
   "theorems": [
    "Verif.Markdown.C123_headings_false",
    "Verif.Markdown.C123_styles_partial",
    "Verif.Markdown.C123_document_partial"
   ],
   "note": "False: the styles of headings are named md-h1 to md-h6, not md-heading-1 to md-heading-6 as docs/userguide/markdown.md:129 says, so a style under the documented name has no effect. With the names of the code the rest holds. The box must have styles named default and code, as every deck has unless they are removed."
  },
  {
   "property": "C124",
   "status": "proved",
   "theorems": [
    "Verif.Slide.C124_box",
    "Verif.Slide.C124_stack"
   ],
   "note": "In terms of the calls and the documented strings only; nothing about the order of boxes that dynamic values refer to is assumed, only that the layout succeeds (C36 says when it fails)."
  },
  {
   "property": "C125",
   "status": "partial",
   "theorems": [
    "Verif.ImageFile.C125_pictures_false",
    "Verif.ImageFile.C125_pictures_partial",
    "Verif.ImageFile.C125_unchanged_partial"
   ],
   "note": "False: the deck keeps what it read under a file name, so a figure written again under the same name is shown as it was the first time. Proved: exactly which calls are accepted and what each shows after any history (the first contents read successfully under the name; bytes as they are; the rest of a file object; ORA contents that failed to convert once make later calls wait for ever), and that a file that was not changed since its first use is shown as it is."
  },
  {
   "property": "C126",
   "status": "partial",
   "theorems": [
    "Verif.Latex.C126_latex_false",
    "Verif.Latex.C126_svg",
    "Verif.Latex.C126_cairo_partial",
    "Verif.Latex.C126_room_partial"
   ],
   "note": "False with Cairo: the size of the box is given to draw_svg instead of that of the formula, so in a larger box the formula is drawn as large as the box, starting where it should start. Proved: it holds with SVG; with Cairo exactly if the box has the size of the formula (as a box of its own has). The room in the box is that of C99 (not for fill and dynamic sizes)."
  },
  {
   "property": "C127",
   "status": "partial",
   "theorems": [
    "Verif.Session.C127_again_false",
    "Verif.Session.C127_again_partial"
   ],
   "note": "False: set_rect leaves the old rectangles in place, so a box that is put before the box it refers to is silently placed where that one was (a slide made anew raises an exception instead); and texts with scale_to_fit are drawn at a wrong scale the second time (C37). Proved: in all other cases, that is if the slide made anew can be shown and texts with scale_to_fit were made after the slide was shown for the last time, every page is the same."
  },
  {
   "property": "C128",
   "status": "partial",
   "theorems": [
    "Verif.Notebook.C128_cells_false",
    "Verif.Notebook.C128_cells_partial",
    "Verif.Notebook.C128_display"
   ],
   "note": "False: a cell whose function raises has already removed the slide of its earlier run, and its unfinished slide stays at the end of the deck. Proved: everything else, including what is on the slide of a run that raised. Decks with external PDFs are left out (C49)."
  },
  {
   "property": "C129",
   "status": "partial",
   "theorems": [
    "Verif.Highlight.C129_colours_false",
    "Verif.Highlight.C129_svg_false",
    "Verif.Highlight.C129_cairo_partial",
    "Verif.Highlight.C129_svg_partial"
   ],
   "note": "False: a lexer with a token type that the theme does not know (themes of pygments know the standard types only) makes drawing raise. Proved for both backends whenever the types are known; for the SVG the texts have to be expressible in XML."
  },
  {
   "property": "C130",
   "status": "partial",
   "theorems": [
    "Verif.Highlight.C130_styles_false",
    "Verif.Highlight.C130_styles_partial"
   ],
   "note": "False: in ~alert{if} the keyword keeps the colour of the theme, because merging puts the style of the token inside that of the user. Proved for styles with a positive priority, in either order of nesting (Cairo); nested styles are left out (C12)."
  },
  {
   "property": "C131",
   "status": "partial",
   "theorems": [
    "Verif.CairoInline.C131_section_false",
    "Verif.CairoInline.C131_section_partial",
    "Verif.CairoInline.C131_boxes_partial",
    "Verif.CairoInline.C131_empty"
   ],
   "note": "False: the box of b in ~a{~b{x}y} is also around the y. Proved for sections that are not inside another one, also for the boxes on a slide (with C120); for such a section without characters inline_box raises an AssertionError. What Pango measures is a parameter: characters side by side, as wide as the font says."
  },
  {
   "property": "C132",
   "status": "partial",
   "theorems": [
    "Verif.Scene.C132_text_false",
    "Verif.Scene.C132_svg_false",
    "Verif.Scene.C132_rows_partial",
    "Verif.Scene.C132_zoom_partial"
   ],
   "note": "False: the space between the rows of a text is multiplied by the scale of the view box and then drawn in a context that already has this scale; SVG pictures are drawn in a context of their own without the view box. Proved for pages without SVG pictures up to the space between the rows (which is zoomed twice), and exactly for texts whose rows are as high as their font. No condition on the order of the drawing, on the arguments or on errors."
  },
  {
   "property": "C133",
   "status": "partial",
   "theorems": [
    "Verif.Scene.C133_viewbox_false",
    "Verif.Scene.C133_fit_false",
    "Verif.Scene.C133_rows_partial"
   ],
   "note": "False: with a view box the space between the rows is zoomed twice, and a text that is scaled to fit has the space between its rows of the unscaled text. Proved: the rows are right exactly if line_spacing * size is the height of the font or the view box zooms by as much as the text is scaled (no view box and no scaling in particular). How Pango puts rows under each other (height of the font times the scale, plus the space) is an assumption in the specification."
  },
  {
   "property": "C134",
   "status": "partial",
   "theorems": [
    "Verif.Cache.C134_process_false",
    "Verif.Cache.C134_next_false",
    "Verif.Cache.C134_reused_partial"
   ],
   "note": "False: texts are measured when they are created, not when the deck is rendered, so the second of two renders with the default options drops all measurements. Proved for all measurements since the start of the process or the last render that pruned, whatever Inkscape would answer the second time."
  },
  {
   "property": "C135",
   "status": "partial",
   "theorems": [
    "Verif.Style.C135_shortcut_false",
    "Verif.Style.C135_shortcut_partial"
   ],
   "note": "False: `update_style` also resets the priority of the style to 0. Proved that this is the only difference, so that the two ways are the same precisely when a priority is given or the style had priority 0."
  },
  {
   "property": "C136",
   "status": "partial",
   "theorems": [
    "Verif.Colors.C136_colors_false",
    "Verif.Colors.C136_colors_partial"
   ],
   "note": "False: `rgb(...)` and `hsl(...)` raise a ValueError with Cairo. Proved: precisely the keywords in any case and the hexadecimal values of three or six digits are accepted, with the right colour for shapes and texts (no rounding: the components for Pango are multiples of 257); everything else raises a ValueError."
  },
  {
   "property": "C137",
   "status": "partial",
   "theorems": [
    "Verif.Book.C137_postprocessing_false",
    "Verif.Book.C137_svg_partial",
    "Verif.Book.C137_cairo_partial",
    "Verif.Book.C137_numbering"
   ],
   "note": "False for decks with PDFs: a deck with a slide and a PDF cannot be rendered with a function that does nothing, as ExternPdfSlide has no method `box`. Proved for decks without PDFs, for SVG and (within the part of C112 that holds) Cairo, and all slides selected; the page numbers of the cookbook without further hypotheses."
  },
  {
   "property": "C138",
   "status": "partial",
   "theorems": [
    "Verif.Markers.C138_markers_cairo",
    "Verif.Markers.C138_markers_svg_false",
    "Verif.Markers.C138_break_in_marker",
    "Verif.Markers.C138_markers_svg_partial",
    "Verif.Markers.C138_equal_priorities_partial"
   ],
   "note": "True for Cairo. False for SVG: in `~#m{~C{x}~D{y}}`, with C of higher priority than D, the `y` is not in style D, without the marker it is; and a line break inside a marker raises. Proved for SVG for the texts of C58 and C59, in particular if all priorities are equal and no line break is inside a marker."
  },
  {
   "property": "C139",
   "status": "proved",
   "theorems": [
    "Verif.Slide.C139_sizes",
    "Verif.Slide.C139_need_unique"
   ],
   "note": "The needs are given by an equation over the calls (`IsNeed`); `C139_need_unique` shows that the equation has one solution. With C124 all rectangles follow from the calls."
  },
  {
   "property": "C140",
   "status": "partial",
   "theorems": [
    "Verif.CodeStep.C140_steps_false",
    "Verif.CodeStep.C140_steps_partial",
    "Verif.CodeStep.C140_places_partial",
    "Verif.CodeStep.C140_overlays"
   ],
   "note": "False: in the step `[None, 1]` pygments removes the empty first line, so that line 1 is shown in the first row and moves when the first line appears. Proved if the first and the last place of every step show a line that is not empty (as in the example of the cookbook): the rows are the lines that were asked for, every line is drawn at the same point in all steps (SVG), and the overlays are where their parent is if the texts are not larger."
  },
  {
   "property": "C141",
   "status": "proved",
   "theorems": [
    "Verif.Slide.C141_grid",
    "Verif.Slide.C141_recipe",
    "Verif.Slide.C141_gradually",
    "Verif.Slide.C141_drawn",
    "Verif.Slide.C141_runs"
   ],
   "note": "The first is for a grid in any box and for any calls that make one; the others for the two programs of the documentation with any numbers of rows and columns. The gap to the right of the last cell of a row and below the last row counts as part of the grid."
  },
  {
   "property": "C142",
   "status": "proved",
   "theorems": [
    "Verif.Slide.C142_header",
    "Verif.Slide.C142_runs"
   ],
   "note": "Also for contents that are higher than the rest of the page: they do not move the header. If the text of the header is higher than the page, the height of the rest is negative."
  },
  {
   "property": "C143",
   "status": "partial",
   "theorems": [
    "Verif.Todo.C143_name_false",
    "Verif.Todo.C143_name_partial",
    "Verif.Todo.C143_place",
    "Verif.Slide.C143_runs"
   ],
   "note": "False for names with `~`, which are read as marked up text: the name `~tt{x}` is shown as `x`, and for `~a{` an exception is raised. Proved for names without `~`; the place of the frames for all names."
  },
  {
   "property": "C144",
   "status": "proved",
   "theorems": [
    "Verif.Slide.C144_accepted",
    "Verif.Slide.C144_laid_out",
    "Verif.Slide.C144_static"
   ],
   "note": "Both directions. The documented forms are meant with the additions that C38 and C39 report: a line break at the end, and further closing parentheses after a size that ends with one. That a box was created earlier is not enough for a dynamic value: if the later box is prepended, it is laid out first, when the other has no rectangle yet, and an `AttributeError` is raised; the example beside the theorems is such a slide."
  },
  {
   "property": "C145",
   "status": "proved",
   "theorems": [
    "Verif.Slide.C145_pages",
    "Verif.Slide.C145_since",
    "Verif.Slide.C145_order",
    "Verif.Slide.C145_stays"
   ],
   "note": "From the calls of a slide; where the boxes are does not depend on the page (C26). For the first three, pictures without fragments of their own."
  },
  {
   "property": "C146",
   "status": "proved",
   "theorems": [
    "Verif.Slide.C146_delegates",
    "Verif.Slide.C146_one",
    "Verif.Slide.C146_boxes",
    "Verif.Slide.C146_snippets"
   ],
   "note": "The methods of boxes that items do not have (`current_fragment`, `name`, styles) are not calls of this model; for `todo_placeholder` see C143."
  },
  {
   "property": "C147",
   "status": "partial",
   "theorems": [
    "Verif.Text.C147_sections_false",
    "Verif.Text.C147_empty_false",
    "Verif.Text.C147_nested_false",
    "Verif.Text.C147_sections_partial",
    "Verif.Text.C147_whole_partial",
    "Verif.Text.C147_nested_partial"
   ],
   "note": "False: a section that begins inside a token of the lexer and goes on behind it is shown as two sections, so `inline_box` is around the first part only and the numbers of later sections are shifted; the same can happen behind an empty section, and with nested sections for one that ends with its token. Negations proved. Proved for all markup: no section is lost, all begin where they were written and in that order, and the first section with a name is the first one written. The claim is proved for markup without empty sections in which no section that begins inside a coloured token reaches to its end, or, if sections are not nested, goes on behind its end. Missing: markup outside of these conditions that happens to be shown as written."
  }
 ]
}
