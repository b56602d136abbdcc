{
 "claims": [
  {
   "property": "C01",
   "status": "proved",
   "theorems": [
    "Verif.BinPacking.C01_no_overlap",
    "Verif.BinPacking.C01_negative_false"
   ],
   "note": "exact arithmetic over any ordered field; objects with sides >= 0, as is needed (C01_negative_false)"
  },
  {
   "property": "C02",
   "status": "proved",
   "theorems": [
    "Verif.BinPacking.C02_inside",
    "Verif.BinPacking.C02_negative_false"
   ],
   "note": "exact arithmetic; objects with sides >= 0, as is needed (C02_negative_false)"
  },
  {
   "property": "C03",
   "status": "proved",
   "theorems": [
    "Verif.BinPacking.C03_exact_size",
    "Verif.BinPacking.C03_turned_only_if_needed"
   ],
   "note": "exact arithmetic"
  },
  {
   "property": "C04",
   "status": "partial",
   "theorems": [
    "Verif.BinPacking.C04_flag_partial",
    "Verif.BinPacking.C04_flag_false",
    "Verif.BinPacking.C04_flag_false_sheet"
   ],
   "note": "The property is false of the code: an object that exactly fills a bin that already existed gets that bin's stale flag (witnesses proved). Proved for all objects that do not exactly fill a free bin."
  },
  {
   "property": "C05",
   "status": "proved",
   "theorems": [
    "Verif.BinPacking.C05_refused_unchanged",
    "Verif.BinPacking.C05_accepted_adds_one"
   ],
   "note": "exact arithmetic"
  },
  {
   "property": "C06",
   "status": "proved",
   "theorems": [
    "Verif.BinPacking.C06_refuses_iff_nothing_fits",
    "Verif.BinPacking.C06_insert_returns",
    "Verif.BinPacking.C06_insert_depth",
    "Verif.BinPacking.C06_history_returns"
   ],
   "note": "exact arithmetic"
  },
  {
   "property": "C07",
   "status": "proved",
   "theorems": [
    "Verif.BinPacking.C07_area"
   ],
   "note": "exact arithmetic"
  },
  {
   "property": "C08",
   "status": "proved",
   "theorems": [
    "Verif.BinPacking.C08_degenerate_refused"
   ],
   "note": "any arithmetic, so also IEEE doubles"
  },
  {
   "property": "C09",
   "status": "proved",
   "theorems": [
    "Verif.BinPacking.C09_padding"
   ],
   "note": "exact arithmetic, paddings >= 0"
  },
  {
   "property": "C10",
   "status": "proved",
   "theorems": [
    "Verif.PlanSet.C10_no_part_lost"
   ],
   "note": "any arithmetic"
  },
  {
   "property": "C11",
   "status": "proved",
   "theorems": [
    "Verif.PlanSet.C11_positive_parts_always_placed",
    "Verif.PlanSet.C11_bad_part_is_an_error"
   ],
   "note": "(a) exact arithmetic and padding >= 0, (b) any arithmetic"
  },
  {
   "property": "C12",
   "status": "proved",
   "theorems": [
    "Verif.PlanSet.C12_oversized_alone"
   ],
   "note": "exact arithmetic"
  },
  {
   "property": "C13",
   "status": "partial",
   "theorems": [
    "Verif.PlanSet.C13_transform_covers",
    "Verif.PlanSet.C13_drawn_apart_partial",
    "Verif.PlanSet.C13_drawn_outside_false"
   ],
   "note": "The transform is proved to cover exactly the rectangle at the position with the flagged orientation. Because the flag can be wrong (C04) the drawn rectangle need not be the reserved one: witness proved; partial theorem for sheets without exact fits. The rounding of the printed numbers to three decimals is in C101."
  },
  {
   "property": "C14",
   "status": "proved",
   "theorems": [
    "Verif.Path.C14_connected",
    "Verif.Path.C14_earlier_kept",
    "Verif.Path.C14_position",
    "Verif.Path.C14_last_end"
   ],
   "note": "connectedness, kept prefix and last end for any arithmetic (also IEEE doubles); the documented end position of each command over the reals"
  },
  {
   "property": "C15",
   "status": "proved",
   "theorems": [
    "Verif.Path.C15_rect",
    "Verif.Path.C15_circle_closes",
    "Verif.Path.C15_circle_round"
   ],
   "note": "rectangle over any ordered field, circle over the reals (exact arithmetic)"
  },
  {
   "property": "C16",
   "status": "partial",
   "theorems": [
    "Verif.Path.C16_false",
    "Verif.Path.C16_quadratic_partial",
    "Verif.Path.C16_relative_partial"
   ],
   "note": "The property is false of the code: an ordinate is computed from the abscissa of the current point (witness proved). Proved: abscissas and end points are right, and the whole curve is right exactly when the current point has x = y."
  },
  {
   "property": "C17",
   "status": "proved",
   "theorems": [
    "Verif.Path.C17_round_trip",
    "Verif.Path.C17_strokes",
    "Verif.Path.C17_rounding",
    "Verif.Path.C17_drawn"
   ],
   "note": "any path over any ordered field with a floor (so rationals and reals), any number of decimals; half-even rounding of the exact value as in strconv"
  },
  {
   "property": "C18",
   "status": "partial",
   "theorems": [
    "Verif.Path.C18_accepts_only_commands_partial",
    "Verif.Path.C18_meaning_partial",
    "Verif.Path.C18_no_close_partial",
    "Verif.Path.C18_reading_unique",
    "Verif.Path.C18_unknown_command_false",
    "Verif.Path.C18_close_false",
    "Verif.Path.C18_minus_false",
    "Verif.Path.C18_spelled",
    "Verif.Path.C18_same_path"
   ],
   "note": "The property is false of the code in three ways (witnesses proved): an item that only begins with a command letter is accepted, Z is ignored, a minus sign does not separate numbers. Proved for every item list whose letters are single and where closing has nothing to draw."
  },
  {
   "property": "C19",
   "status": "proved",
   "theorems": [
    "Verif.Path.C19_pieces",
    "Verif.Path.C19_svg_strokes",
    "Verif.Path.C19_strokes"
   ],
   "note": "any path, any arithmetic"
  },
  {
   "property": "C20",
   "status": "proved",
   "theorems": [
    "Verif.Path.C20_trim"
   ],
   "note": "any path, any arithmetic"
  },
  {
   "property": "C21",
   "status": "proved",
   "theorems": [
    "Verif.Bezier.C21_box",
    "Verif.Bezier.C21_bound_needed"
   ],
   "note": "real numbers extended by the IEEE special values (the code takes roots of negative numbers); only the start point needs to be below 2^63, and that is needed"
  },
  {
   "property": "C22",
   "status": "proved",
   "theorems": [
    "Verif.Bezier.C22_split",
    "Verif.Bezier.C22_section",
    "Verif.Bezier.C22_zero_false",
    "Verif.Bezier.C22_empty_section_false"
   ],
   "note": "any ordered field; the last two record what goes wrong outside the quantified range"
  },
  {
   "property": "C23",
   "status": "proved",
   "theorems": [
    "Verif.Bezier.C23_evaluation",
    "Verif.Bezier.C23_derivative"
   ],
   "note": "evaluation over any ordered field, the derivative over the reals"
  },
  {
   "property": "C24",
   "status": "partial",
   "theorems": [
    "Verif.Bezier.C24_sound_partial",
    "Verif.Bezier.C24_roots_exact",
    "Verif.Bezier.C24_complete_partial",
    "Verif.Bezier.C24_false"
   ],
   "note": "The property is false of the code: C24_statement is refuted by C24_false (a downward segment is cut to its lower end). Proved: soundness up to the code's own tolerance for all curves and segments, and completeness for upward segments and curves without tiny nonzero coefficients."
  },
  {
   "property": "C25",
   "status": "partial",
   "theorems": [
    "Verif.Bezier.C25_nearest_origin_partial",
    "Verif.Bezier.C25_false"
   ],
   "note": "The property is false of the code (C25_false): the point asked for is shadowed. Proved: what it computes instead."
  },
  {
   "property": "C26",
   "status": "proved",
   "theorems": [
    "Verif.Path.C26_exact",
    "Verif.Path.C26_unique"
   ],
   "note": "real numbers extended by the IEEE special values; curves start below 2^63 (needed, see C21)"
  },
  {
   "property": "C27",
   "status": "proved",
   "theorems": [
    "Verif.Path.C27_shift",
    "Verif.Path.C27_compose",
    "Verif.Path.C27_inverse",
    "Verif.Path.C27_points"
   ],
   "note": "any ordered field"
  },
  {
   "property": "C28",
   "status": "proved",
   "theorems": [
    "Verif.Path.C28_handles",
    "Verif.Path.C28_anchor_unique",
    "Verif.Path.C28_anchor_shift",
    "Verif.Path.C28_move",
    "Verif.Path.C28_read_back",
    "Verif.Path.C28_default"
   ],
   "note": "all handles, real numbers extended by the IEEE special values; curves start below 2^63"
  },
  {
   "property": "C29",
   "status": "proved",
   "theorems": [
    "Verif.Path.C29_trim",
    "Verif.Path.C29_idempotent"
   ],
   "note": "real numbers extended by the IEEE special values; curves start below 2^63"
  },
  {
   "property": "C30",
   "status": "proved",
   "theorems": [
    "Verif.Path.C30_strokes",
    "Verif.Path.C30_width_height",
    "Verif.Path.C30_width",
    "Verif.Path.C30_height",
    "Verif.Path.C30_flat_nan"
   ],
   "note": "real numbers extended by the IEEE special values; C30_flat_nan records what happens outside the quantified range"
  },
  {
   "property": "C31",
   "status": "proved",
   "theorems": [
    "Verif.Path.C31_rotate",
    "Verif.Path.C31_points",
    "Verif.Path.C31_rigid",
    "Verif.Path.C31_axis",
    "Verif.Path.C31_back",
    "Verif.Path.C31_start_end",
    "Verif.Path.C31_handles",
    "Verif.Path.C31_back_false"
   ],
   "note": "exact real sine and cosine; C31_start_end: the axis read from the path's own start or end. About a handle of the box rotating back need not restore the drawing, as the box is then another (C31_back_false)."
  },
  {
   "property": "C32",
   "status": "proved",
   "theorems": [
    "Verif.Path.C32_mirror",
    "Verif.Path.C32_twice",
    "Verif.Path.C32_outside_false"
   ],
   "note": "real numbers extended by the IEEE special values; C32_outside_false shows that the restriction to paths whose end moves stay inside their box is needed"
  },
  {
   "property": "C33",
   "status": "proved",
   "theorems": [
    "Verif.Path.C33_reverse",
    "Verif.Path.C33_connected",
    "Verif.Path.C33_twice"
   ],
   "note": "any path, any arithmetic with a symmetric =="
  },
  {
   "property": "C34",
   "status": "proved",
   "theorems": [
    "Verif.Path.C34_strokes",
    "Verif.Path.C34_exact",
    "Verif.Path.C34_shape",
    "Verif.Path.C34_svg"
   ],
   "note": "any arithmetic with a symmetric ==; C34_svg over any ordered field"
  },
  {
   "property": "C35",
   "status": "partial",
   "theorems": [
    "Verif.Path.C35_false",
    "Verif.Path.C35_succeeds_partial",
    "Verif.Path.C35_newPath",
    "Verif.Path.C35_no_new_strokes"
   ],
   "note": "That it succeeds on every path is false of the code (C35_false: it panics on a path that begins with a stroke and its reverse). Proved: success on every path that begins with a move; no stroke is invented on any path. What is removed: C135."
  },
  {
   "property": "C36",
   "status": "proved",
   "theorems": [
    "Verif.Path.C36_reorder",
    "Verif.Path.C36_succeeds",
    "Verif.Path.C36_nearest"
   ],
   "note": "any arithmetic with a symmetric ==, paths whose segments are chained"
  },
  {
   "property": "C37",
   "status": "proved",
   "theorems": [
    "Verif.Path.C37_success",
    "Verif.Path.C37_stops",
    "Verif.Path.C37_error_source"
   ],
   "note": "any transforms; the path returned beside an error is not modelled"
  },
  {
   "property": "C38",
   "status": "proved",
   "theorems": [
    "Verif.Path.C38_join",
    "Verif.Path.C38_exact",
    "Verif.Path.C38_unmoved_false"
   ],
   "note": "any arithmetic. A path without a leading move loses its first stroke (C38_unmoved_false)."
  },
  {
   "property": "C39",
   "status": "proved",
   "theorems": [
    "Verif.Path.C39_on_both",
    "Verif.Path.C39_found",
    "Verif.Path.C39_parallel",
    "Verif.Path.C39_nearly_vertical_false"
   ],
   "note": "real numbers extended by the IEEE special values; lines that are vertical only to the working precision are excluded, and C39_nearly_vertical_false shows they must be"
  },
  {
   "property": "C40",
   "status": "proved",
   "theorems": [
    "Verif.Path.C40_parallel",
    "Verif.Path.C40_offset",
    "Verif.Path.C40_point_nan"
   ],
   "note": "real numbers extended by the IEEE special values"
  },
  {
   "property": "C41",
   "status": "proved",
   "theorems": [
    "Verif.Dyn.C41_put_get",
    "Verif.Dyn.C41_put_other",
    "Verif.Dyn.C41_put_dotted",
    "Verif.Dyn.C41_get_dotted",
    "Verif.Dyn.C41_shadow_false"
   ],
   "note": "any values; a literal key that contains dots hides the dotted path when reading with Get (C41_shadow_false)"
  },
  {
   "property": "C42",
   "status": "proved",
   "theorems": [
    "Verif.Dyn.C42_failed_put"
   ],
   "note": "any values"
  },
  {
   "property": "C43",
   "status": "proved",
   "theorems": [
    "Verif.Dyn.C43_right",
    "Verif.Dyn.C43_replaced",
    "Verif.Dyn.C43_left",
    "Verif.Dyn.C43_order",
    "Verif.Dyn.C43_self",
    "Verif.Dyn.C43_clone",
    "Verif.Dyn.C43_dots_false",
    "Verif.Dyn.C43_dotted"
   ],
   "note": "maps without duplicate keys, as Go maps are; keys of b without dots: C43_dots_false shows that this is needed"
  },
  {
   "property": "C44",
   "status": "proved",
   "theorems": [
    "Verif.Dyn.C44_round_trip",
    "Verif.Dyn.C44_flatten",
    "Verif.Dyn.C44_list_false",
    "Verif.Dyn.C44_empty_false",
    "Verif.Dyn.C44_list"
   ],
   "note": "the restrictions to maps without lists and without empty inner maps are needed (witnesses proved)"
  },
  {
   "property": "C45",
   "status": "partial",
   "theorems": [
    "Verif.Dyn.C45_strip_partial",
    "Verif.Dyn.C45_false",
    "Verif.Dyn.C45_last_line_false"
   ],
   "note": "The property is false of the code: a string with two slashes is cut (C45_false) and a line comment on the last line without line break stays (C45_last_line_false). Proved for documents whose strings contain no comment opener and whose line comments end with a line break."
  },
  {
   "property": "C46",
   "status": "proved",
   "theorems": [
    "Verif.Dyn.C46_order",
    "Verif.Dyn.C46_described",
    "Verif.Dyn.C46_own",
    "Verif.Dyn.C46_own_text",
    "Verif.Dyn.C46_inherit",
    "Verif.Dyn.C46_missing",
    "Verif.Dyn.C46_references",
    "Verif.Dyn.C46_cycle",
    "Verif.Dyn.C46_attr_local",
    "Verif.Dyn.C46_attr_inherit",
    "Verif.Dyn.C46_attr_default",
    "Verif.Dyn.C46_own_text_false",
    "Verif.Dyn.C46_twenty",
    "Verif.Dyn.C46_no_more",
    "Verif.Dyn.C46_ancestor_text",
    "Verif.Dyn.C46_attr_default_ancestor"
   ],
   "note": "any values. Termination: the model is a total function by recursion on the arguments of the code (counter and chain), without fuel. A text that is itself a name is replaced by what the name stands for, so the precedence of a text holds when it is nobody's name (C46_own_text, C46_own_text_false)."
  },
  {
   "property": "C47",
   "status": "partial",
   "theorems": [
    "Verif.Dyn.C47_sound",
    "Verif.Dyn.C47_value_partial",
    "Verif.Dyn.C47_budget",
    "Verif.Dyn.C47_budget_false",
    "Verif.Dyn.C47_ends_partial",
    "Verif.Dyn.C47_ends_functions_partial",
    "Verif.Dyn.C47_cycle_no_value",
    "Verif.Dyn.C47_cycle_partial",
    "Verif.Dyn.C47_diverges_false"
   ],
   "note": "The property is false of the code: x = sqrt('x') is evaluated for ever (C47_diverges_false) and an acyclic expression with more than twenty references gives an error (C47_budget_false). Proved: every value is the one by substitution; it is found when at most twenty references are needed; without function calls the evaluation ends and cycles give an error; with function calls it ends when no text is quoted and the parameters are truth values, numbers, expressions, or lists and maps without texts. The five functions are modelled (C129); the parser and the operators of govaluate are arbitrary functions."
  },
  {
   "property": "C48",
   "status": "proved",
   "theorems": [
    "Verif.Path.C48_copies",
    "Verif.Path.C48_fill",
    "Verif.Path.C48_within",
    "Verif.Path.C48_same"
   ],
   "note": "real numbers extended by the IEEE special values; the component that is repeated is an arbitrary function. A limit of zero or less still draws one copy."
  },
  {
   "property": "C49",
   "status": "proved",
   "theorems": [
    "Verif.Path.C49_along",
    "Verif.Path.C49_edge",
    "Verif.Path.C49_origin"
   ],
   "note": "real numbers extended by the IEEE special values"
  },
  {
   "property": "C50",
   "status": "partial",
   "theorems": [
    "Verif.Path.C50_fits_partial",
    "Verif.Path.C50_fits_false",
    "Verif.Path.C50_left_alone",
    "Verif.Path.C50_turned_once",
    "Verif.Path.C50_turned_size",
    "Verif.Path.C50_parts",
    "Verif.Path.C50_cut_two"
   ],
   "note": "The property is false of the code when the maximum height exceeds the maximum width: C50_fits_false gives a part that is declared to fit and does not. Proved when the maximum height is at most the maximum width; and that a part is turned at most once."
  },
  {
   "property": "C51",
   "status": "proved",
   "theorems": [
    "Verif.Path.C51_heights",
    "Verif.Path.C51_layers",
    "Verif.Path.C51_thickness"
   ],
   "note": "the outline is an arbitrary function from heights to intercepts; real heights"
  },
  {
   "property": "C52",
   "status": "proved",
   "theorems": [
    "Verif.Path.C52_repeat",
    "Verif.Path.C52_transformers",
    "Verif.Path.C52_error",
    "Verif.Path.C52_from_one_false"
   ],
   "note": "any rendering function and transformers"
  },
  {
   "property": "C53",
   "status": "partial",
   "theorems": [
    "Verif.Log.C53_recorded",
    "Verif.Log.C53_errors",
    "Verif.Log.C53_two_levels_partial",
    "Verif.Log.C53_ancestors_false",
    "Verif.Log.C53_fatal_false",
    "Verif.Log.C53_fields",
    "Verif.Log.C53_child",
    "Verif.Log.C53_parent_fields"
   ],
   "note": "The property is false of the code: a message reaches the parent but not the grandparent (C53_ancestors_false), and a fatal message does not count as an error (C53_fatal_false). Proved: exactly what each logger records for any tree and sequence, and the property for trees of two levels."
  },
  {
   "property": "C54",
   "status": "proved",
   "theorems": [
    "Verif.Files.C54_inch",
    "Verif.Files.C54_mm",
    "Verif.Files.C54_factor",
    "Verif.Files.C54_units",
    "Verif.Files.C54_names"
   ],
   "note": "any field of characteristic zero"
  },
  {
   "property": "C55",
   "status": "partial",
   "theorems": [
    "Verif.Files.C55_sheets",
    "Verif.Files.C55_zip",
    "Verif.Files.C55_plan",
    "Verif.Files.C55_all_partial",
    "Verif.Files.C55_directories_false",
    "Verif.Files.C55_default",
    "Verif.Files.C55_directory"
   ],
   "note": "The property is false of the code: designs with the same base name in different directories are written to the same files (C55_directories_false, with two designs of the repository's layout). Proved: sheets of one plan never collide; plans with different base names never collide."
  },
  {
   "property": "C56",
   "status": "partial",
   "theorems": [
    "Verif.Xml.C56_ends",
    "Verif.Xml.C56_decode",
    "Verif.Xml.C56_parse",
    "Verif.Xml.C56_whole_partial",
    "Verif.Xml.C56_text_false",
    "Verif.Xml.C56_error_false"
   ],
   "note": "The property is false of the code for text: only the last run of text of an element is kept (C56_text_false), and the import panics on malformed XML (C56_error_false). Proved: names, attributes and children for every tree; the text for elements with one run of text. The tokenizer of encoding/xml is trusted."
  },
  {
   "property": "C57",
   "status": "partial",
   "theorems": [
    "Verif.Xml.C57_ignored_false",
    "Verif.Xml.C57_path",
    "Verif.Xml.C57_matrix_false",
    "Verif.Xml.C57_line",
    "Verif.Xml.C57_rect",
    "Verif.Xml.C57_circle",
    "Verif.Xml.C57_group",
    "Verif.Xml.C57_group_ok",
    "Verif.Xml.C57_match",
    "Verif.Xml.C57_last",
    "Verif.Xml.C57_applied"
   ],
   "note": "The property is false of the code: the transform pattern is applied to the letter t instead of the attribute, so no transform is ever applied (C57_ignored_false), and the matrix branch would use the wrong submatches (C57_matrix_false). Proved: which strokes are imported for lines, rectangles, circles and groups of them; which texts the pattern matches (C57_match), that a transform as SVG writes it would not be matched either (C57_last), and that a matched matrix would be applied as SVG says (C57_applied)."
  },
  {
   "property": "C58",
   "status": "proved",
   "theorems": [
    "Verif.Dyn.C58_override",
    "Verif.Dyn.C58_base",
    "Verif.Dyn.C58_type",
    "Verif.Dyn.C58_transforms",
    "Verif.Dyn.C58_name"
   ],
   "note": "any values; exceptions in the statement: the custom_component key, the type of parts and the index"
  },
  {
   "property": "C59",
   "status": "proved",
   "theorems": [
    "Verif.Bezier.C59_reduce",
    "Verif.Bezier.C59_terminates",
    "Verif.Bezier.C59_flat_start",
    "Verif.Bezier.C59_straight"
   ],
   "note": "real numbers extended by the IEEE special values; C59_straight shows that pieces do come out"
  },
  {
   "property": "C60",
   "status": "proved",
   "theorems": [
    "Verif.Bezier.C60_on_both",
    "Verif.Bezier.C60_found_iff",
    "Verif.Bezier.C60_unique"
   ],
   "note": "any ordered field"
  },
  {
   "property": "C61",
   "status": "proved",
   "theorems": [
    "Verif.Bezier.C61_offset_point"
   ],
   "note": "real numbers"
  },
  {
   "property": "C62",
   "status": "proved",
   "theorems": [
    "Verif.Bezier.C62_overlap",
    "Verif.Bezier.C62_inner_points"
   ],
   "note": "real numbers"
  },
  {
   "property": "C63",
   "status": "partial",
   "theorems": [
    "Verif.Bezier.C63_inside_partial",
    "Verif.Bezier.C63_false"
   ],
   "note": "The property is false of the code (C63_false): at the ends distance and parameter are exchanged. Proved: the case away from the ends."
  },
  {
   "property": "C64",
   "status": "proved",
   "theorems": [
    "Verif.Bezier.C64_sound",
    "Verif.Bezier.C64_terminates",
    "Verif.Bezier.C64_self",
    "Verif.Bezier.C64_self_apart"
   ],
   "note": "real numbers extended by the IEEE special values"
  },
  {
   "property": "C65",
   "status": "partial",
   "theorems": [
    "Verif.Bezier.C65_reported_partial",
    "Verif.Bezier.C65_false"
   ],
   "note": "The property is false of the code (C65_false): a curve whose first control point is its start is never reported to cross anything. Proved: crossings in general position of curves that can be reduced are reported."
  },
  {
   "property": "C66",
   "status": "proved",
   "theorems": [
    "Verif.Path.C66_forward",
    "Verif.Path.C66_leftwards",
    "Verif.Path.C66_towards_end_false"
   ],
   "note": "real numbers extended by the IEEE special values; the plain reading (always towards the end) is refuted by C66_towards_end_false"
  },
  {
   "property": "C67",
   "status": "proved",
   "theorems": [
    "Verif.Bezier.C67_possible",
    "Verif.Bezier.C67_scale",
    "Verif.Bezier.C67_offset",
    "Verif.Bezier.C67_doubled",
    "Verif.Bezier.C67_doubled_apart",
    "Verif.Bezier.C67_doubled_false",
    "Verif.Bezier.C67_centre_false",
    "Verif.Bezier.C67_straight_false"
   ],
   "note": "real numbers extended by the IEEE special values; curves whose control points are not on the ends. The direction at an end is kept unless the normals meet in that end point (C67_centre_false); a straight curve has no offset at all (C67_straight_false)."
  },
  {
   "property": "C68",
   "status": "proved",
   "theorems": [
    "Verif.Dyn.C68_literal",
    "Verif.Dyn.C68_dotted",
    "Verif.Dyn.C68_absent",
    "Verif.Dyn.C68_gone",
    "Verif.Dyn.C68_gone_false",
    "Verif.Dyn.C68_all"
   ],
   "note": "any values; a dotted key can be found again after its literal entry has been removed (C68_gone_false)"
  },
  {
   "property": "C69",
   "status": "proved",
   "theorems": [
    "Verif.Dyn.C69_absent",
    "Verif.Dyn.C69_add",
    "Verif.Dyn.C69_add_dotted",
    "Verif.Dyn.C69_not_list",
    "Verif.Dyn.C69_all"
   ],
   "note": "any values"
  },
  {
   "property": "C70",
   "status": "proved",
   "theorems": [
    "Verif.Path.C70_cursor",
    "Verif.Path.C70_draws",
    "Verif.Path.C70_empty"
   ],
   "note": "children and transforms are arbitrary functions; drawn paths finite, not empty, curves start below 2^63"
  },
  {
   "property": "C71",
   "status": "proved",
   "theorems": [
    "Verif.Path.C71_one_run",
    "Verif.Path.C71_headless_false",
    "Verif.Path.joinLoop_terminates"
   ],
   "note": "real numbers extended by the IEEE special values; a drawing without a leading move can panic (C71_headless_false)"
  },
  {
   "property": "C72",
   "status": "proved",
   "theorems": [
    "Verif.Path.C72_unchanged",
    "Verif.Path.C72_closed",
    "Verif.Path.C72_retrace_false"
   ],
   "note": "finite connected runs; a stroke that goes back over the one before it is removed together with it (C72_retrace_false)"
  },
  {
   "property": "C73",
   "status": "proved",
   "theorems": [
    "Verif.Path.C73_lines",
    "Verif.Path.C73_curves",
    "Verif.Path.C73_parallel_false"
   ],
   "note": "a line first and a line last that are parallel stay apart (C73_parallel_false)"
  },
  {
   "property": "C74",
   "status": "proved",
   "theorems": [
    "Verif.Path.C74_outer",
    "Verif.Path.split_ends"
   ],
   "note": "real numbers extended by the IEEE special values"
  },
  {
   "property": "C75",
   "status": "proved",
   "theorems": [
    "Verif.Path.C75_near",
    "Verif.Path.C75_lines",
    "Verif.Path.C75_curves",
    "Verif.Path.C75_line_curve",
    "Verif.Path.C75_parallel_false"
   ],
   "note": "parallel lines with a gap stay apart (C75_parallel_false); where a line meets a curve the point of meeting is numerical and exact equality is not claimed"
  },
  {
   "property": "C76",
   "status": "proved",
   "theorems": [
    "Verif.Path.C76_succeeds",
    "Verif.Path.C76_zero",
    "Verif.Path.C76_one_run",
    "Verif.Path.C76_lines",
    "Verif.Path.C76_size"
   ],
   "note": "real numbers extended by the IEEE special values"
  },
  {
   "property": "C77",
   "status": "proved",
   "theorems": [
    "Verif.Path.C77_strokes",
    "Verif.Path.C77_drawn",
    "Verif.Path.C77_compose",
    "Verif.Path.C77_special",
    "Verif.Path.C77_fin"
   ],
   "note": "any ordered field; finite paths in extended arithmetic by C77_fin"
  },
  {
   "property": "C78",
   "status": "proved",
   "theorems": [
    "Verif.Path.C78_similarity",
    "Verif.Path.C78_ends",
    "Verif.Path.C78_closed"
   ],
   "note": "exact real sine, cosine and arc tangent; curves start below 2^63 in absolute value (needed for the bounding box that the rotation uses)"
  },
  {
   "property": "C79",
   "status": "proved",
   "theorems": [
    "Verif.Path.C79_pieces",
    "Verif.Path.C79_line",
    "Verif.Path.C79_cut",
    "Verif.Path.C79_aside"
   ],
   "note": "C79_pieces: any segment; the others: straight lines and horizontal knives wider than the precision"
  },
  {
   "property": "C80",
   "status": "proved",
   "theorems": [
    "Verif.Path.C80_pieces",
    "Verif.Path.C80_above",
    "Verif.Path.C80_left_false"
   ],
   "note": "straight lines; the knife begins at zero or at the start of the first segment, so a crossing further left is not cut (C80_left_false)"
  },
  {
   "property": "C81",
   "status": "proved",
   "theorems": [
    "Verif.Path.C81_intercepts",
    "Verif.Path.C81_left_false"
   ],
   "note": "straight lines; crossings to the left of zero are missed (C81_left_false)"
  },
  {
   "property": "C82",
   "status": "proved",
   "theorems": [
    "Verif.Path.C82_outline",
    "Verif.Path.C82_within",
    "Verif.Path.C82_involute",
    "Verif.Path.C82_thickness",
    "Verif.Path.C82_meet_false"
   ],
   "note": "exact real sine, cosine, square root and arc cosine. The code writes 3.142 for pi in the last corner of a tooth, so a tooth goes past the begin of the next one (C82_meet_false)."
  },
  {
   "property": "C83",
   "status": "proved",
   "theorems": [
    "Verif.Path.C83_numbers",
    "Verif.Path.C83_printed",
    "Verif.Path.C83_coordinates",
    "Verif.Path.C83_size",
    "Verif.Path.C83_unknown",
    "Verif.Path.C83_start_false"
   ],
   "note": "C83_numbers and C83_unknown for any numbers; the others for finite coordinates, with curves that start below 2^63. The coordinates of the start and the end of a drawing cannot be asked for (C83_start_false)."
  },
  {
   "property": "C84",
   "status": "proved",
   "theorems": [
    "Verif.Path.C84_copies",
    "Verif.Path.C84_sides",
    "Verif.Path.C84_length",
    "Verif.Path.C84_closed",
    "Verif.Path.C84_refused",
    "Verif.Path.C84_index_false",
    "Verif.Path.C84_center_false"
   ],
   "note": "exact real sine and cosine. The copies are turned about the centre rounded to the precision, so other centres do not work (C84_center_false); all copies are told the index 0 (C84_index_false); a negative number of edges panics (C84_refused)."
  },
  {
   "property": "C85",
   "status": "proved",
   "theorems": [
    "Verif.Path.C85_edge",
    "Verif.Path.C85_origin",
    "Verif.Path.C85_degenerate"
   ],
   "note": "children are arbitrary functions; the transforms of the edge run afterwards (C37)"
  },
  {
   "property": "C86",
   "status": "proved",
   "theorems": [
    "Verif.Path.C86_rows",
    "Verif.Path.C86_spaced",
    "Verif.Path.C86_disjoint",
    "Verif.Path.C86_straight",
    "Verif.Path.C86_curved",
    "Verif.Path.C86_outline_false",
    "Verif.Path.C86_render_false",
    "Verif.Path.C86_ends_false"
   ],
   "note": "the outline and the repeated component are arbitrary functions with finite drawings; C86_straight and C86_curved put it together with C81 and C147 for outlines of straight lines and of curves. Errors of the outline and of the component are lost (C86_outline_false, C86_render_false), and for a negative spacing the loop need not end (C86_ends_false)."
  },
  {
   "property": "C87",
   "status": "proved",
   "theorems": [
    "Verif.Path.C87_factors",
    "Verif.Path.C87_both",
    "Verif.Path.C87_level",
    "Verif.Path.C87_upright",
    "Verif.Path.C87_collapse",
    "Verif.Path.C87_infinite",
    "Verif.Path.C87_reach_false"
   ],
   "note": "finite real coordinates. An upright path scaled to two level points shrinks to nothing (C87_collapse), a level path scaled to upright points gets infinite factors (C87_infinite), and a path is never turned around (C87_reach_false)."
  },
  {
   "property": "C88",
   "status": "proved",
   "theorems": [
    "Verif.Path.C88_refused",
    "Verif.Path.C88_accepted",
    "Verif.Path.C88_connected",
    "Verif.Path.C88_kept"
   ],
   "note": "for any arithmetic; attributes are arbitrary lookups. C88_accepted is about the fourteen commands that do not fit an svg text; for the other four see C89."
  },
  {
   "property": "C89",
   "status": "proved",
   "theorems": [
    "Verif.Path.C89_connect",
    "Verif.Path.C89_scale",
    "Verif.Path.C89_scale_same",
    "Verif.Path.C89_reach_false"
   ],
   "note": "finite real coordinates; any text that is read. The strokes of the text must have different ends. svg_scale_to misses a point that lies the other way (C89_reach_false) and shrinks the text to nothing if the point is the end of the drawing (C89_scale_same)."
  },
  {
   "property": "C90",
   "status": "proved",
   "theorems": [
    "Verif.Dyn.C90_order",
    "Verif.Dyn.C90_sorted",
    "Verif.Dyn.C90_order_false",
    "Verif.Dyn.C90_bool_unsorted",
    "Verif.Dyn.C90_numbers_false"
   ],
   "note": "sort.Sort is any procedure that permutes and leaves no inversion when its order is a strict weak order. With truth values Less is not an order (C90_order_false), and fractions are cut off before comparing (C90_numbers_false)."
  },
  {
   "property": "C91",
   "status": "proved",
   "theorems": [
    "Verif.Dyn.C91_number",
    "Verif.Dyn.C91_point_map",
    "Verif.Dyn.C91_point_text",
    "Verif.Dyn.C91_cursor",
    "Verif.Dyn.C91_polar",
    "Verif.Dyn.C91_default",
    "Verif.Dyn.C91_flag",
    "Verif.Dyn.C91_dollar",
    "Verif.Dyn.C91_name",
    "Verif.Dyn.C91_literal",
    "Verif.Dyn.C91_ends",
    "Verif.Dyn.C91_ends_false"
   ],
   "note": "for any arithmetic and any library for expressions. Two attributes that name each other are followed for ever (C91_ends_false)."
  },
  {
   "property": "C92",
   "status": "proved",
   "theorems": [
    "Verif.Path.C92_made",
    "Verif.Path.C92_reorder",
    "Verif.Path.C92_all_or_nothing",
    "Verif.Path.C92_order",
    "Verif.Path.C92_cursor",
    "Verif.Path.C92_none",
    "Verif.Path.C92_matrix",
    "Verif.Path.C92_move",
    "Verif.Path.C92_scale",
    "Verif.Path.C92_mirror",
    "Verif.Path.C92_rotate",
    "Verif.Path.C92_offset",
    "Verif.Path.C92_others",
    "Verif.Path.C92_defaults"
   ],
   "note": "attributes are arbitrary lookups; any arithmetic, and real numbers for the effects. The transform reorder, which the program contains, is not registered (C92_reorder)."
  },
  {
   "property": "C93",
   "status": "proved",
   "theorems": [
    "Verif.Path.C93_faithful",
    "Verif.Path.C93_real",
    "Verif.Path.C93_text",
    "Verif.Path.C93_variables",
    "Verif.Path.C93_toothless_false"
   ],
   "note": "C93_faithful: real numbers extended by the IEEE special values, no slice; C93_real and C93_text: real numbers, slices allowed. Join and offset are excluded because joining parallel lines leaves gaps (C75_parallel_false). A gear without teeth begins with a line and no move (C93_toothless_false). Attributes and expressions are arbitrary functions of the variables and the cursor."
  },
  {
   "property": "C94",
   "status": "proved",
   "theorems": [
    "Verif.Path.C94_no_panic",
    "Verif.Path.C94_no_panic_real",
    "Verif.Path.C94_empty_group",
    "Verif.Path.C94_empty_edge",
    "Verif.Path.C94_negative_around",
    "Verif.Path.C94_lost_error",
    "Verif.Path.C94_sliced_away"
   ],
   "note": "any arithmetic without cleanup, real numbers with cleanup. Each excluded case does panic: C94_empty_group, C94_empty_edge, C94_negative_around, C94_lost_error (intercepts), C94_sliced_away. Recursion of attributes is not part of it (C91)."
  },
  {
   "property": "C95",
   "status": "proved",
   "theorems": [
    "Verif.Dyn.C95_ends",
    "Verif.Dyn.C95_made",
    "Verif.Dyn.C95_ends_false"
   ],
   "note": "maps without dotted keys. A custom component whose map has its own name as type is looked up for ever (C95_ends_false): parts keep any type that their map has, so a document can contain such a component. C95_made needs that repeat components have the map of their component (see C96) and that no component has component keys that its type does not use."
  },
  {
   "property": "C96",
   "status": "proved",
   "theorems": [
    "Verif.Dyn.C96_again",
    "Verif.Dyn.C96_again_false"
   ],
   "note": "maps without dotted keys. The repeat component does not put the resolved map of its component into its own, so a repeated custom component is lost or taken from the wrong document when it is imported (C96_again_false); the theorem excludes exactly this. The ids of parts that have none in their map may change."
  },
  {
   "property": "C97",
   "status": "proved",
   "theorems": [
    "Verif.Dyn.C97_local",
    "Verif.Dyn.C97_file",
    "Verif.Dyn.C97_imports",
    "Verif.Dyn.C97_next",
    "Verif.Dyn.C97_ends",
    "Verif.Dyn.C97_ends_false",
    "Verif.Dyn.C97_import_false"
   ],
   "note": "maps without dotted keys; reading a file is a function of its name. Files that lead back to themselves are read for ever (C97_ends_false, C97_import_false)."
  },
  {
   "property": "C98",
   "status": "proved",
   "theorems": [
    "Verif.Dyn.C98_found",
    "Verif.Dyn.C98_kept",
    "Verif.Dyn.C98_order",
    "Verif.Dyn.C98_defaults",
    "Verif.Dyn.C98_drawings",
    "Verif.Dyn.C98_elements",
    "Verif.Dyn.C98_elements_false",
    "Verif.Dyn.C98_order_false"
   ],
   "note": "the iteration order is any permutation, chosen anew for every set of elements. With a name given twice the result depends on the order (C98_order_false); of two components with the same id one is lost (C98_elements_false)."
  },
  {
   "property": "C99",
   "status": "proved",
   "theorems": [
    "Verif.Svg.C99_written",
    "Verif.Svg.C99_written_special",
    "Verif.Svg.C99_new",
    "Verif.Svg.C99_clone",
    "Verif.Svg.C99_clone_false",
    "Verif.Svg.C99_displaced_false",
    "Verif.Svg.C99_label_false"
   ],
   "note": "real numbers, and real numbers extended by the IEEE special values. Texts are written without escaping, so a label like A&B gives a file that is no XML (C99_label_false); if a label has no place the error is dropped and the group of the part stays open, so the file is not balanced (C99_displaced_false). A copy of a sheet loses the style of the labels (C99_clone_false)."
  },
  {
   "property": "C100",
   "status": "proved",
   "theorems": [
    "Verif.Svg.C100_imported",
    "Verif.Svg.C100_label_false"
   ],
   "note": "real numbers; encoding/xml is replaced by the reader of Verif/Spec/SvgDoc.lean. Transforms are ignored by the import (C57), so the parts come back on top of each other."
  },
  {
   "property": "C101",
   "status": "proved",
   "theorems": [
    "Verif.Svg.C101_spelled",
    "Verif.Svg.C101_placed",
    "Verif.Svg.C101_apart"
   ],
   "note": "real numbers; strconv rounds half to even on the exact value. With C13 this gives the gaps on the written sheet."
  },
  {
   "property": "C102",
   "status": "proved",
   "theorems": [
    "Verif.Dyn.C102_reads",
    "Verif.Dyn.C102_written",
    "Verif.Dyn.C102_zero_false"
   ],
   "note": "strconv.ParseInt with base 0 is written out in the model. A leading zero means octal, so 010 is read as 8 (C102_zero_false)."
  },
  {
   "property": "C103",
   "status": "proved",
   "theorems": [
    "Verif.Dyn.C103_pieces",
    "Verif.Dyn.C103_back",
    "Verif.Dyn.C103_integers",
    "Verif.Dyn.C103_characters"
   ],
   "note": "C103_back and C103_integers: delimiters of one character"
  },
  {
   "property": "C104",
   "status": "proved",
   "theorems": [
    "Verif.Dyn.C104_back",
    "Verif.Dyn.C104_list",
    "Verif.Dyn.C104_list_false",
    "Verif.Dyn.C104_add"
   ],
   "note": "url.Values.Encode and url.ParseQuery are trusted to be inverse to each other up to the order of the keys. A list gets its own printed text as one more element (C104_list_false)."
  },
  {
   "property": "C105",
   "status": "proved",
   "theorems": [
    "Verif.Path.C105_move",
    "Verif.Path.C105_line",
    "Verif.Path.C105_curve",
    "Verif.Path.C105_smooth",
    "Verif.Path.C105_angle",
    "Verif.Path.C105_rectangle",
    "Verif.Path.C105_circle",
    "Verif.Path.C105_relative"
   ],
   "note": "any arithmetic for move, line, curve and the relative commands, real numbers for the others. The four svg commands are C89, round_corner is C106."
  },
  {
   "property": "C106",
   "status": "proved",
   "theorems": [
    "Verif.Path.C106_corner",
    "Verif.Path.C106_straight",
    "Verif.Path.C106_round",
    "Verif.Path.C106_oblique_false"
   ],
   "note": "real numbers. PointAtDistance goes the wrong way along lines that slant to the left, so a corner with a slanting second leg is never right (C106_oblique_false)."
  },
  {
   "property": "C107",
   "status": "proved",
   "theorems": [
    "Verif.Files.C107_error",
    "Verif.Files.C107_files",
    "Verif.Files.C107_order",
    "Verif.Files.C107_relative",
    "Verif.Files.C107_relative_false",
    "Verif.Files.C107_directories_false"
   ],
   "note": "the file system is a tree without links. Written with ./ in front, the directory is not taken off (C107_relative_false). DirectoryList lists the files and no directory (C107_directories_false)."
  },
  {
   "property": "C108",
   "status": "proved",
   "theorems": [
    "Verif.Files.C108_clear",
    "Verif.Files.C108_extension_false"
   ],
   "note": "the extension is only the end of the name, so clearing svg also removes a file called oldsvg (C108_extension_false)"
  },
  {
   "property": "C109",
   "status": "proved",
   "theorems": [
    "Verif.Files.C109_reports",
    "Verif.Files.C109_count_false",
    "Verif.Files.C109_extra_false"
   ],
   "note": "diffmatchpatch is assumed honest: its pieces make up the two texts, and are all equal if the texts are. The number of differences that diff_test prints leaves out missing files (C109_count_false), and files that are only on the right are not noticed (C109_extra_false)."
  },
  {
   "property": "C110",
   "status": "proved",
   "theorems": [
    "Verif.Files.C110_frame",
    "Verif.Files.C110_documents",
    "Verif.Files.C110_written",
    "Verif.Files.C110_default",
    "Verif.Files.C110_same_name_false"
   ],
   "note": "the renderer is any function of the file system that does not look at .svg files. Documents of the same name in different directories overwrite each other (C110_same_name_false); without an output directory nothing is rendered (C110_default)."
  },
  {
   "property": "C111",
   "status": "proved",
   "theorems": [
    "Verif.Files.C111_flags",
    "Verif.Files.C111_render",
    "Verif.Files.C111_render_path",
    "Verif.Files.C111_render_all",
    "Verif.Files.C111_updated",
    "Verif.Files.C111_output_false",
    "Verif.Files.C111_render_alone",
    "Verif.Files.C111_render_flag_first",
    "Verif.Files.C111_diff",
    "Verif.Files.C111_defaults",
    "Verif.Files.C111_diff_temp",
    "Verif.Files.C111_comments"
   ],
   "note": "package flag is written out in the model. Flags after the file of render are ignored (C111_output_false), before it they are taken for the file (C111_render_flag_first); render alone panics (C111_render_alone); render_all without an output directory does nothing (C111_render_all)."
  },
  {
   "property": "C112",
   "status": "proved",
   "theorems": [
    "Verif.Files.C112_params",
    "Verif.Files.C112_answer",
    "Verif.Files.C112_panic",
    "Verif.Files.C112_error",
    "Verif.Files.C112_saved",
    "Verif.Files.C112_type_false"
   ],
   "note": "any decoder and renderer. The handler panics for a sheet that does not exist (C112_panic); a failure is answered with nothing and status 200 (C112_error); the value of save_file is ignored (C112_saved), and the content type is set too late (C112_type_false)."
  },
  {
   "property": "C113",
   "status": "proved",
   "theorems": [
    "Verif.Dyn.C113_document",
    "Verif.Dyn.C113_file",
    "Verif.Dyn.C113_parts",
    "Verif.Dyn.C113_map",
    "Verif.Dyn.C113_drawings",
    "Verif.Dyn.C113_customs",
    "Verif.Render.C113_words"
   ],
   "note": "C113_map: maps without dotted keys. What is in a file and what a drawing is read as are arbitrary functions."
  },
  {
   "property": "C114",
   "status": "proved",
   "theorems": [
    "Verif.Render.C114_part",
    "Verif.Render.C114_part_real",
    "Verif.Render.C114_sheets",
    "Verif.Render.C114_sheets_real"
   ],
   "note": "with special numbers (C114_part, C114_sheets) without slices and splitters; on real numbers with them. Evaluation of expressions is bounded by fuel; what needs more is not found."
  },
  {
   "property": "C115",
   "status": "proved",
   "theorems": [
    "Verif.Render.C115_part",
    "Verif.Render.C115_document",
    "Verif.Render.C115_nested_false"
   ],
   "note": "C115_part: any arithmetic, without cleanups. C115_document: real numbers, with a padding that is not negative. A gear with a variable name in a part in a group panics, always (C115_nested_false)."
  },
  {
   "property": "C116",
   "status": "proved",
   "theorems": [
    "Verif.Render.C116_left",
    "Verif.Render.C116_again"
   ],
   "note": "any arithmetic, renderings that succeed. Part transformers are not included: the global variables of a lathe have other names."
  },
  {
   "property": "C117",
   "status": "proved",
   "theorems": [
    "Verif.Render.C117_sheets",
    "Verif.Render.C117_text"
   ],
   "note": "C117_sheets: any arithmetic. C117_text: real numbers; texts without markup and labels with places, as in C99."
  },
  {
   "property": "C118",
   "status": "proved",
   "theorems": [
    "Verif.Render.C118_part",
    "Verif.Render.C118_sheets",
    "Verif.Render.C118_all",
    "Verif.Render.C118_text"
   ],
   "note": "numbers that may be infinite or not a number, which do not occur in such documents. The map of the document is the decoded JSON. C118_text: names without markup, not empty."
  },
  {
   "property": "C119",
   "status": "proved",
   "theorems": [
    "Verif.Render.C119_draw",
    "Verif.Render.C119_gear",
    "Verif.Render.C119_part",
    "Verif.Render.C119_group",
    "Verif.Render.C119_copies",
    "Verif.Render.C119_basicEdge",
    "Verif.Render.C119_repeatEdge",
    "Verif.Render.C119_around",
    "Verif.Render.C119_xIntercept",
    "Verif.Render.C119_part_any",
    "Verif.Render.C119_group_any",
    "Verif.Render.C119_copies_any",
    "Verif.Render.C119_basicEdge_any",
    "Verif.Render.C119_repeatEdge_any",
    "Verif.Render.C119_around_any",
    "Verif.Render.C119_kinds"
   ],
   "note": "any arithmetic. The equations are for children made of parts, drawings and groups, which leave the variables as they are; the theorems _any are about successful renderings with any children. No theorem _any for intercepts."
  },
  {
   "property": "C120",
   "status": "proved",
   "theorems": [
    "Verif.Render.C120_part",
    "Verif.Render.C120_transformers",
    "Verif.Render.C120_cut",
    "Verif.Render.C120_split",
    "Verif.Render.C120_split_plain",
    "Verif.Render.C120_lathe"
   ],
   "note": "any arithmetic. Edges of splitters that set no global variable, the component of a lathe made of parts, drawings and groups. C120_part: parts made of parts, drawings and groups."
  },
  {
   "property": "C121",
   "status": "proved",
   "theorems": [
    "Verif.Render.C121_stated",
    "Verif.Render.C121_each",
    "Verif.Render.C121_default",
    "Verif.Render.C121_units",
    "Verif.Render.C121_word",
    "Verif.Render.C121_sheets"
   ],
   "note": "any arithmetic. C121_sheets: for documents whose settings do not depend on the global variables that are set (a predicate on the variables that all the parts keep)."
  },
  {
   "property": "C122",
   "status": "proved",
   "theorems": [
    "Verif.Dyn.C122_sound",
    "Verif.Dyn.C122_found",
    "Verif.Dyn.C122_signs",
    "Verif.Dyn.C122_unique",
    "Verif.Dyn.C122_part",
    "Verif.Dyn.C122_climb",
    "Verif.Dyn.C122_other",
    "Verif.Dyn.C122_same_false",
    "Verif.Dyn.C122_sign_false"
   ],
   "note": "any values. Elements are given by their maps."
  },
  {
   "property": "C123",
   "status": "proved",
   "theorems": [
    "Verif.Xml.C123_same",
    "Verif.Xml.C123_equivalence",
    "Verif.Xml.C123_parsed",
    "Verif.Xml.C123_order"
   ],
   "note": "any values."
  },
  {
   "property": "C124",
   "status": "proved",
   "theorems": [
    "Verif.C124_doubles",
    "Verif.BinPacking.C124_exact_size",
    "Verif.BinPacking.C124_inside",
    "Verif.BinPacking.C124_overlap",
    "Verif.BinPacking.C124_refused",
    "Verif.BinPacking.C124_depth",
    "Verif.BinPacking.C124_padding",
    "Verif.BinPacking.C124_sheet",
    "Verif.BinPacking.C124_overlap_false",
    "Verif.BinPacking.C124_inside_false"
   ],
   "note": "every arithmetic with rounding bounded in a range; C124_doubles: IEEE doubles up to 2^1000, without the sign of zero. Sizes and sheet with finite sides that are not negative."
  },
  {
   "property": "C125",
   "status": "proved",
   "theorems": [
    "Verif.PlanSet.C125_sheets",
    "Verif.PlanSet.C125_oversized_alone",
    "Verif.PlanSet.C125_drawn",
    "Verif.PlanSet.C125_each",
    "Verif.PlanSet.C125_doubles"
   ],
   "note": "every arithmetic with rounding bounded in a range (IEEE doubles: C124_doubles). Sheet and padding finite and not negative, parts with finite positive sides. C125_drawn (with the flag for turned parts): parts added to one sheet that meet no free bin of exactly their size, for which the flag is wrong (C04, C13)."
  },
  {
   "property": "C126",
   "status": "proved",
   "theorems": [
    "Verif.Bezier.C126_point",
    "Verif.Bezier.C126_casteljau",
    "Verif.Bezier.C126_derivative",
    "Verif.Bezier.C126_split",
    "Verif.Bezier.C126_section"
   ],
   "note": "IEEE doubles without the sign of zero, each operation rounded by itself. Coordinates up to any B from 1 to 10^100; splits at a parameter above zero."
  },
  {
   "property": "C127",
   "status": "proved",
   "theorems": [
    "Verif.Path.C127_shift",
    "Verif.Path.C127_scale",
    "Verif.Path.C127_matrix",
    "Verif.Files.C127_units"
   ],
   "note": "IEEE doubles without the sign of zero, each operation rounded by itself. Coordinates up to any B from 1 to 10^100, factors up to 10^50."
  },
  {
   "property": "C128",
   "status": "proved",
   "theorems": [
    "Verif.Path.C128_read",
    "Verif.Path.C128_stable",
    "Verif.Path.C128_equal"
   ],
   "note": "IEEE doubles without the sign of zero (NewPoint removes it). B from 1 to 10^100 for reading; (B+1)*10^n up to 2^51 for C128_stable."
  },
  {
   "property": "C129",
   "status": "proved",
   "theorems": [
    "Verif.Dyn.C129_call",
    "Verif.Dyn.C129_distance",
    "Verif.Dyn.C129_angle",
    "Verif.Dyn.C129_angle_exists",
    "Verif.Dyn.C129_distance_metric",
    "Verif.Dyn.C129_units",
    "Verif.Dyn.C129_back",
    "Verif.Dyn.C129_sqrt",
    "Verif.Dyn.C129_sqrt_value",
    "Verif.Dyn.C129_sqrt_panics_false",
    "Verif.Dyn.C129_sqrt_empty_false"
   ],
   "note": "exact real arithmetic; which texts are calls and how the comma makes a list is the library's. The panic of sqrt() is C129_sqrt_empty_false."
  },
  {
   "property": "C130",
   "status": "proved",
   "theorems": [
    "Verif.Path.C130_box",
    "Verif.Path.C130_trim",
    "Verif.Path.C130_handles",
    "Verif.Path.C130_move"
   ],
   "note": "IEEE doubles without the sign of zero, each operation rounded by itself, for any functions of package math. Straight strokes; coordinates up to any B from 1 to 10^100 (10^99 for moving)."
  },
  {
   "property": "C131",
   "status": "proved",
   "theorems": [
    "Verif.Bezier.C131_clockwise",
    "Verif.Bezier.C131_possible",
    "Verif.Bezier.C131_scaled",
    "Verif.Bezier.C131_tangent_false"
   ],
   "note": "exact real arithmetic with NaN and infinities as possible results, which do not occur. That the direction at the ends is not kept is C131_tangent_false."
  },
  {
   "property": "C132",
   "status": "proved",
   "theorems": [
    "Verif.Path.C132_elipses",
    "Verif.Path.C132_elipses_false",
    "Verif.Path.C132_dedup",
    "Verif.Path.C132_dedup_first",
    "Verif.Path.C132_ends",
    "Verif.Path.C132_cursor",
    "Verif.Path.C132_inBox",
    "Verif.Path.C132_move",
    "Verif.Path.C132_rounded",
    "Verif.Dyn.C132_contains",
    "Verif.Dyn.C132_slices",
    "Verif.Dyn.C132_defaults",
    "Verif.Log.C132_message"
   ],
   "note": "exact arithmetic for inBox, move and rounded; the time of a message is any value. Half a character: C132_elipses_false."
  },
  {
   "property": "C133",
   "status": "proved",
   "theorems": [
    "Verif.Svg.C133_written",
    "Verif.Svg.C133_placed",
    "Verif.Svg.C133_shown",
    "Verif.Svg.C133_ground",
    "Verif.Svg.C133_apart",
    "Verif.Svg.C133_inside",
    "Verif.Svg.C133_sheet",
    "Verif.Svg.C133_sheets"
   ],
   "note": "IEEE doubles without the sign of zero, any functions of package math. Coordinates finite and up to B (up to 10^99); C133_written: any numbers. C133_sheet: parts that meet no free bin of exactly their size (C13), inside of their boxes up to any distance."
  },
  {
   "property": "C134",
   "status": "proved",
   "theorems": [
    "Verif.BinPacking.C134_horizontal",
    "Verif.BinPacking.C134_unsplit",
    "Verif.PlanSet.C134_position",
    "Verif.PlanSet.C134_position_fits",
    "Verif.PlanSet.C134_position_rest_false",
    "Verif.Path.C134_rounded",
    "Verif.Path.C134_unsigned",
    "Verif.Bezier.C134_dedup",
    "Verif.Bezier.C134_insert",
    "Verif.Bezier.C134_nan",
    "Verif.Render.C134_measure",
    "Verif.Dyn.C134_toMap",
    "Verif.Dyn.C134_empty",
    "Verif.Dyn.C134_containsMap",
    "Verif.Dyn.C134_must",
    "Verif.Dyn.C134_param",
    "Verif.Dyn.C134_param_missing",
    "Verif.Dyn.C134_param_text"
   ],
   "note": "exact arithmetic for (a) to (d), except for NaN. Times are not modelled."
  },
  {
   "property": "C135",
   "status": "proved",
   "theorems": [
    "Verif.Path.C135_pairs",
    "Verif.Path.C135_keeps",
    "Verif.Path.C135_even",
    "Verif.Path.C135_none_left",
    "Verif.Path.C135_reorder",
    "Verif.Path.C135_once_false"
   ],
   "note": "exact arithmetic. Of a stroke that is drawn forth and back both copies are removed, so that it is not drawn at all any more (C135_once_false)."
  },
  {
   "property": "C136",
   "status": "proved",
   "theorems": [
    "Verif.PlanSet.C136_sheets",
    "Verif.Svg.C136_path",
    "Verif.Render.C136_seen"
   ],
   "note": "numbers that may be infinite or not a number, which do not occur in such documents (as C118). The distances: outlines that do not meet a free bin of exactly their padded size, for which the flag for turned parts is wrong (C13)."
  },
  {
   "property": "C137",
   "status": "proved",
   "theorems": [
    "Verif.Shapes.C137_seen"
   ],
   "note": "IEEE doubles without the sign of zero, any functions of package math. The distances: outlines that do not meet a free bin of exactly their padded size, for which the flag for turned parts is wrong (C13)."
  },
  {
   "property": "C138",
   "status": "proved",
   "theorems": [
    "Verif.Path.C138_moves",
    "Verif.Path.C138_quadratic_false"
   ],
   "note": "real numbers. Not among the commands: relative quadratic curves, of which it is false because of C16 (witness proved), and relative rounded corners, whose legs are compared after rounding to three decimals (C106)."
  },
  {
   "property": "C139",
   "status": "proved",
   "theorems": [
    "Verif.Render.C139_part",
    "Verif.Render.C139_sheets",
    "Verif.Render.C139_seen",
    "Verif.Render.C139_points"
   ],
   "note": "numbers that may be infinite or not a number, which do not occur in such documents (as C118). The distances: parts that do not meet a free bin of exactly their padded size, for which the flag for turned parts is wrong (C13). Coordinates below 2^62, because the search for the box of a curve starts at 2^63. Not among the commands: rounded corners (C106) and svg texts."
  },
  {
   "property": "C140",
   "status": "proved",
   "theorems": [
    "Verif.Render.C140_sheets",
    "Verif.Render.C140_seen",
    "Verif.Render.C140_seen_drawn",
    "Verif.Render.C140_fixed",
    "Verif.Render.C140_copies",
    "Verif.Render.C140_fine"
   ],
   "note": "numbers that may be infinite or not a number (C140_copies: any arithmetic). C140_seen_drawn also covers documents that join, offset or slice, if every rendered part is read back as drawn. That the settings of the sheets and pages do not change is asked for a predicate on the global variables that all the parts keep. The distances: drawings that do not meet a free bin of exactly their padded size (C13). C141 is an instance in which all suppositions hold."
  },
  {
   "property": "C141",
   "status": "proved",
   "theorems": [
    "Verif.Render.C141_seen"
   ],
   "note": "numbers that may be infinite or not a number, which do not occur in such documents; int(f) is exact on whole numbers. The distances: drawings that do not meet a free bin of exactly their padded size (C13). Coordinates below 2^62, as in C139. A label text with a dot, or that is the name of an attribute, may be looked up as one (C122) and is not included."
  },
  {
   "property": "C142",
   "status": "proved",
   "theorems": [
    "Verif.Render.C142_same",
    "Verif.Render.C142_values",
    "Verif.Render.C142_seen"
   ],
   "note": "numbers that may be infinite or not a number, which do not occur in such documents; int(f) is exact on whole numbers. Parsing and the operators are the library's (any). Evaluation is bounded by fuel: the files are the same for every fuel from some number on. Not included: a text that names another number of its command or an attribute of the document, which would be taken instead; texts of parameters that are numbers themselves; expressions with more than twenty references, which are refused (C47)."
  },
  {
   "property": "C143",
   "status": "proved",
   "theorems": [
    "Verif.Path.C143_line_curve",
    "Verif.Path.C143_curve_line",
    "Verif.Path.C143_hangs",
    "Verif.Path.C143_far_end_false"
   ],
   "note": "numbers that may be infinite or not a number, which do not occur here. When the nearest meeting is the far end of the curve, the whole curve is drawn after the line to that end, so that they do not hang together (witness proved). Without meeting, the gap is bridged as in C75."
  },
  {
   "property": "C144",
   "status": "proved",
   "theorems": [
    "Verif.Path.C144_pieces",
    "Verif.Path.C144_cut",
    "Verif.Path.C144_ends"
   ],
   "note": "numbers that may be infinite or not a number, which do not occur here. The recursion is modelled with fuel; C144_ends gives a number from which on every fuel is enough. C144_cut: knives drawn downwards miss crossings (C24)."
  },
  {
   "property": "C145",
   "status": "proved",
   "theorems": [
    "Verif.Path.C145_slice",
    "Verif.Path.C145_kept"
   ],
   "note": "numbers that may be infinite or not a number, which do not occur here. The recursion of the knife is modelled with fuel: the result is the same kind for every fuel from some number on. A curve may miss crossings where it is tangent to the height or not generic for the knife (C24); then its piece is left in if it has a point above. Lines: see C80 for what is left of them."
  },
  {
   "property": "C146",
   "status": "proved",
   "theorems": [
    "Verif.Path.C146_lines",
    "Verif.Path.C146_lines_found",
    "Verif.Path.C146_line_curve",
    "Verif.Path.C146_curves",
    "Verif.Path.C146_moves"
   ],
   "note": "numbers that may be infinite or not a number, which do not occur here. Lines that are vertical to the precision only are cut at the abscissa of their start (C39). Not every crossing of a line drawn downwards and a curve is found (C24), and completeness for two curves is not claimed: the code stops at a threshold of one half."
  },
  {
   "property": "C147",
   "status": "proved",
   "theorems": [
    "Verif.Path.C147_intercepts"
   ],
   "note": "numbers that may be infinite or not a number, which do not occur here. Crossings to the left of zero are missed (C81_left_false)."
  },
  {
   "property": "C148",
   "status": "proved",
   "theorems": [
    "Verif.Path.C148_larger",
    "Verif.Path.C148_smaller",
    "Verif.Path.C148_side"
   ],
   "note": "numbers that may be infinite or not a number, which do not occur here. The distance must be above the precision of the join and of the segment operators, and the sides longer than twice the distance. The result begins at a corner and goes round in a direction that depend on the proportions."
  },
  {
   "property": "C149",
   "status": "proved",
   "theorems": [
    "Verif.Render.C149_seen"
   ],
   "note": "numbers that may be infinite or not a number, which do not occur here; the precision is the default 3. The distances: drawings that do not meet a free bin of exactly their padded size (C13)."
  },
  {
   "property": "C150",
   "status": "proved",
   "theorems": [
    "Verif.Render.C150_scene",
    "Verif.Render.C150_seen",
    "Verif.Render.C150_nested"
   ],
   "note": "numbers that may be infinite or not a number, which do not occur here. The depth of the groups is at most the fuel. Groups are not empty (an empty group panics). Handles other than the origin are covered by C28 and C31 for one path. The distances: drawings that do not meet a free bin of exactly their padded size (C13)."
  },
  {
   "property": "C151",
   "status": "proved",
   "theorems": [
    "Verif.Path.C151_plug",
    "Verif.Path.C151_socket",
    "Verif.Path.C151_holes",
    "Verif.Path.C151_mirror",
    "Verif.Path.C151_outline",
    "Verif.Path.C151_fit",
    "Verif.Path.C151_room",
    "Verif.Path.C151_joint",
    "Verif.Path.C151_short",
    "Verif.Path.C151_within_false"
   ],
   "note": "numbers that may be infinite or not a number, which do not occur here. The commands of the pieces are given as the designs state them, with their points evaluated; the transform `join` that plug and socket apply afterwards is the subject of C152. The fingers stick out of the edge if the paddings leave no room (`C151_within_false`)."
  },
  {
   "property": "C152",
   "status": "proved",
   "theorems": [
    "Verif.Path.C152_unchanged",
    "Verif.Path.C152_closed",
    "Verif.Path.C152_plug",
    "Verif.Path.C152_socket"
   ],
   "note": "numbers that may be infinite or not a number, which do not occur here. That a path begins with a move and every stroke at the pen is said by ReadAsDrawn (what a reader of the SVG sees is what the path draws). A path that ends with a move is not covered. The result ends with a stroke."
  },
  {
   "property": "C153",
   "status": "proved",
   "theorems": [
    "Verif.Render.C153_seen",
    "Verif.Render.render_joint"
   ],
   "note": "numbers that may be infinite or not a number, which do not occur here. The library of expressions is trusted to read the five expressions of the designs as they are meant (ReadsJoints; jointLib is one that does). The start `from` is given, and the parameters stand on the component itself, as after the merge of a custom component. The distances: drawings that do not meet a free bin of exactly their padded size (C13)."
  },
  {
   "property": "C154",
   "status": "proved",
   "theorems": [
    "Verif.Render.C154_scale",
    "Verif.Render.C154_named",
    "Verif.Render.C154_written"
   ],
   "note": "numbers that may be infinite or not a number, which do not occur here. The lengths of the units are those of CSS (cssUnits). The documents are those of C140: the size of the sheet and the word for the units do not change while the parts are rendered. The letter \u0130, whose small form in Go is two characters, is left out."
  },
  {
   "property": "C155",
   "status": "proved",
   "theorems": [
    "Verif.Render.C155_holes",
    "Verif.Render.C155_seen"
   ],
   "note": "numbers that may be infinite or not a number, which do not occur here. The library of expressions is trusted to read the expressions of the designs as they are meant (ReadsJoints, ReadsHoles, ReadsTabs, ReadsLines, ReadsScrews; panelLib is one that does). Drawings begin with a move to some point, so that they do not depend on where the cursor is (Scene.Anchored). The starts are given, and the parameters stand on the component itself, as after the merge of a custom component. The distances: drawings that do not meet a free bin of exactly their padded size (C13)."
  },
  {
   "property": "C156",
   "status": "proved",
   "theorems": [
    "Verif.Render.C156_gear",
    "Verif.Render.C156_within"
   ],
   "note": "numbers that may be infinite or not a number, which do not occur here; exact real sine, cosine, square root and arc cosine. The attributes are numbers or left out; expressions for them are covered by C47 and C91. The variable name of a gear is left out (C119_gear). As in C82 the last corner of a tooth has 3.142 for pi."
  },
  {
   "property": "C157",
   "status": "proved",
   "theorems": [
    "Verif.Path.C157_edge",
    "Verif.Path.C157_mirror",
    "Verif.Path.C157_outline",
    "Verif.Path.C157_joint",
    "Verif.Render.C157_tab"
   ],
   "note": "numbers that may be infinite or not a number, which do not occur here. The library of expressions is trusted to read the six expressions of the designs as they are meant (ReadsTabs; panelLib is one that does). The parameters stand on the component itself, as after the merge of a custom component; the start is given. Documents of panels with tab joints are in C155_seen."
  },
  {
   "property": "C158",
   "status": "proved",
   "theorems": [
    "Verif.Path.C158_edge",
    "Verif.Render.C158_line",
    "Verif.Render.C158_chain",
    "Verif.Render.C158_seen"
   ],
   "note": "numbers that may be infinite or not a number, which do not occur here. The library of expressions is trusted to read 0 as a number and width as a name (ReadsLines; lineLib is one that does). The edges stand in the document as after the merge of the custom component line. Straight edges mixed with joints are in C155_seen."
  },
  {
   "property": "C159",
   "status": "proved",
   "theorems": [
    "Verif.Render.C159_hole",
    "Verif.Render.C159_round",
    "Verif.Render.C159_box",
    "Verif.Render.C159_screws",
    "Verif.Render.C159_seen"
   ],
   "note": "numbers that may be infinite or not a number, which do not occur here. The library of expressions is trusted to read the five expressions of the designs as they are meant (ReadsScrews; screwLib is one that does). The drawing stands in the document as after the merge of the custom component. Screw holes mixed with joints are in C155_seen."
  },
  {
   "property": "C160",
   "status": "proved",
   "theorems": [
    "Verif.Path.C160_edge",
    "Verif.Render.C160_svg",
    "Verif.Render.C160_seen"
   ],
   "note": "numbers that may be infinite or not a number, which do not occur here. What the text draws is what parsePath reads (C04, C56 are about that); the start of a curve is below 2^63 as in C78. The library of expressions is trusted to read 0 as a number and width as a name (ReadsLines). The parameter svg stands on the edge itself and the start is given, as after the merge of the custom component. Such edges mixed with joints are in C155_seen."
  },
  {
   "property": "C161",
   "status": "proved",
   "theorems": [
    "Verif.Render.C161_rectangle",
    "Verif.Render.C161_seen"
   ],
   "note": "numbers that may be infinite or not a number, which do not occur here. The parameters are numbers and stand on the drawing itself, as after the merge of the custom component."
  },
  {
   "property": "C162",
   "status": "proved",
   "theorems": [
    "Verif.Render.C162_margins",
    "Verif.Render.C162_hole",
    "Verif.Render.C162_drawing"
   ],
   "note": "numbers that may be infinite or not a number, which do not occur here. The offset that stands before the move in the shipped design is left out (C162_margins holds for whatever it yields, if its curves start below 2^63). The attributes of the transform are given as looked up."
  }
 ]
}