{
 "claims": [
  {
   "property": "C01",
   "status": "proved",
   "theorems": [
    "Verif.Props.Coord.c01_unpack_pack",
    "Verif.Props.Coord.c01_error_bound",
    "Verif.Props.Coord.c01_exact"
   ],
   "note": "Round trip stated with an independent rounding relation; floats are exact rationals (trusted base)."
  },
  {
   "property": "C02",
   "status": "partial",
   "theorems": [
    "Verif.Props.Coord.c02_repack_partial",
    "Verif.Props.Coord.c02_false_no_decimals",
    "Verif.Props.Coord.c02_false_no_integers"
   ],
   "note": "Proved for every format with at least one integer and one decimal digit; false otherwise, with witnesses c02_false_no_decimals and c02_false_no_integers."
  },
  {
   "property": "C03",
   "status": "proved",
   "theorems": [
    "Verif.Props.Coord.c03_unpack_leading",
    "Verif.Props.Coord.c03_unpack_trailing",
    "Verif.Props.Coord.c03_redundant_leading",
    "Verif.Props.Coord.c03_redundant_trailing"
   ],
   "note": ""
  },
  {
   "property": "C04",
   "status": "proved",
   "theorems": [
    "Verif.Props.Coord.c04_pack",
    "Verif.Props.Coord.c04_no_decimals_never_packs"
   ],
   "note": "c04_no_decimals_never_packs records that formats without decimals cannot be written at all."
  },
  {
   "property": "C05",
   "status": "proved",
   "theorems": [
    "Verif.Props.State.c05_draw_modes",
    "Verif.Props.State.c05_file_drawings"
   ],
   "note": "All histories and all files, nested blocks included."
  },
  {
   "property": "C06",
   "status": "proved",
   "theorems": [
    "Verif.Props.State.c06_current_point",
    "Verif.Props.State.c06_spec_unique",
    "Verif.Props.State.c06_draw_ends",
    "Verif.Props.State.c06_flash_point"
   ],
   "note": "All histories; the value is that of the format in force at the command. G91 (incremental notation) never influences coordinates; see DESIGN.md."
  },
  {
   "property": "C07",
   "status": "proved",
   "theorems": [
    "Verif.Props.State.c07_attributes",
    "Verif.Props.State.c07_aperture_attributes",
    "Verif.Props.State.c07_undefined_aperture"
   ],
   "note": ""
  },
  {
   "property": "C08",
   "status": "proved",
   "theorems": [
    "Verif.Props.State.c08_next_free",
    "Verif.Props.State.c08_empty_fails"
   ],
   "note": "With nothing defined the call fails (c08_empty_fails)."
  },
  {
   "property": "C09",
   "status": "partial",
   "theorems": [
    "Verif.Props.State.c09_false_default",
    "Verif.Props.State.c09_false_ignore",
    "Verif.Props.State.c09_default_resumes_partial",
    "Verif.Props.State.c09_ignore_stops_partial",
    "Verif.Props.State.c09_stop_in_body_partial"
   ],
   "note": "The stated behaviour is refuted for both values of the flag: the flag is inverted. The partial theorems describe what the code does, including a stop inside a block body."
  },
  {
   "property": "C10",
   "status": "partial",
   "theorems": [
    "Verif.Props.State.c10_flash_latest_partial",
    "Verif.Props.State.c10_false_ad_and_ab",
    "Verif.Props.State.c10_not_selected",
    "Verif.Props.State.c10_not_found",
    "Verif.Props.State.c10_flash_succeeds",
    "Verif.Props.State.c10_select_succeeds"
   ],
   "note": "Error cases in full. Flashes for codes not defined both by AD and AB; refuted otherwise (AD wins even if older)."
  },
  {
   "property": "C11",
   "status": "proved",
   "theorems": [
    "Verif.Props.Expr.c11_conventional_value"
   ],
   "note": "For every text the parser accepts, against an independent relational semantics of the notation."
  },
  {
   "property": "C12",
   "status": "partial",
   "theorems": [
    "Verif.Props.Expr.c12_print_parse_partial",
    "Verif.Props.Expr.c12_print_parse_fixed_partial",
    "Verif.Props.Expr.c12_false_small_constants"
   ],
   "note": "Holds for constants printed positionally; refuted for positive constants below 1e-4 (printed with an exponent, which the grammar rejects)."
  },
  {
   "property": "C13",
   "status": "partial",
   "theorems": [
    "Verif.Props.Expr.c13_explicit_parentheses_partial",
    "Verif.Props.Expr.c13_false_minus_plus"
   ],
   "note": "Holds for trees without a sign directly inside another sign; refuted for -(+$1), printed -+$1."
  },
  {
   "property": "C14",
   "status": "proved",
   "theorems": [
    "Verif.Props.Resolve.c14_well_formed"
   ],
   "note": "every successful compilation; layer boxes are automatic"
  },
  {
   "property": "C15",
   "status": "partial",
   "theorems": [
    "Verif.Props.Layers.c15_distinct_partial",
    "Verif.Props.Layers.c15_false_thermal"
   ],
   "note": "False with thermals (c15_false_thermal); proved without thermals and without codes defined both by AD and AB."
  },
  {
   "property": "C16",
   "status": "partial",
   "theorems": [
    "Verif.Props.Resolve.c16_false_diamond",
    "Verif.Props.Resolve.c16_false_cycle",
    "Verif.Props.Resolve.c16_cycle_partial",
    "Verif.Props.Resolve.c16_acyclic_partial"
   ],
   "note": "false: diamonds are reported as cycles and real cycles end in RecursionError (witnesses proved); partial theorems for cyclic and for tree shaped dependency graphs"
  },
  {
   "property": "C17",
   "status": "partial",
   "theorems": [
    "Verif.Props.Flash.c17_flash_partial",
    "Verif.Props.FlashImage.c17_image_partial",
    "Verif.Props.FlashImage.c17_files_nested"
   ],
   "note": "Stated for histories. c17_flash_partial: a flash of a standard aperture pastes a layer holding the image of its nominal shape. c17_image_partial: for every kind of aperture, macros with thermals and blocks with flashes and repetitions in them included, a flash draws the image of what is drawn on the aperture's layer when its definition ends. Missing: scaling by zero, codes defined twice and thermals drawn twice (C19 and C15 do not hold for them)."
  },
  {
   "property": "C18",
   "status": "partial",
   "theorems": [
    "Verif.Props.Repeat.c18_copies_partial",
    "Verif.Props.Repeat.c18_at_origin_partial",
    "Verif.Props.Repeat.c18_zero_repeats",
    "Verif.Props.Repeat.c18_false_displaced"
   ],
   "note": "c18_copies_partial says exactly what a block draws, at the top level of a file or within block apertures, and that the layers of the other open blocks are left alone; c18_false_displaced shows that copies are displaced by the current point as well; c18_at_origin_partial is the property when that point is the origin. Not covered: a body that defines again the block it is in. Step and repeat blocks within step and repeat blocks are not accepted by the grammar."
  },
  {
   "property": "C19",
   "status": "partial",
   "theorems": [
    "Verif.Props.Flash.c19_redefinition_partial",
    "Verif.Props.Flash.c19_false_flashed_before"
   ],
   "note": "False in general (c19_false_flashed_before: a transformed copy made before the redefinition is reused); proved for codes not flashed before the redefinition."
  },
  {
   "property": "C20",
   "status": "partial",
   "theorems": [
    "Verif.Props.Compiler.c20_regions_partial",
    "Verif.Props.Compiler.c20_spec_chained",
    "Verif.Props.Compiler.c20_false_single_quadrant"
   ],
   "note": "False with single-quadrant arcs in a region (c20_false_single_quadrant); proved without them."
  },
  {
   "property": "C21",
   "status": "partial",
   "theorems": [
    "Verif.Props.Compiler.c21_polarity_partial",
    "Verif.Props.Compiler.c21_other_commands",
    "Verif.Props.Compiler.c21_false_block"
   ],
   "note": "False for flashes of block apertures (c21_false_block); proved for the others."
  },
  {
   "property": "C22",
   "status": "partial",
   "theorems": [
    "Verif.Props.Compiler.c22_arc",
    "Verif.Props.Compiler.c22_full_circle_partial",
    "Verif.Props.Compiler.c22_region",
    "Verif.Props.Compiler.c22_false_full_circle"
   ],
   "note": "False for full circles outside regions (c22_false_full_circle)."
  },
  {
   "property": "C23",
   "status": "partial",
   "theorems": [
    "Verif.Props.RvmcBuilder.c23_balanced",
    "Verif.Props.RvmcBuilder.c23_order_partial",
    "Verif.Props.RvmcBuilder.c23_renders_partial",
    "Verif.Props.RvmcBuilder.c23_false_duplicate",
    "Verif.Props.RvmcBuilder.c23_false_outer_paste"
   ],
   "note": "Balance is proved for every history of builder calls. Completeness of pasted layers and absence of the three errors are proved for careful use (distinct names, one main layer, pastes on the innermost open layer). Refuted otherwise: a name used twice, and a finished layer pasted on an outer layer while the layer it was made in is still open."
  },
  {
   "property": "C24",
   "status": "proved",
   "theorems": [
    "Verif.Props.Vm.c24_smallest_box"
   ],
   "note": "For every command list: the box of an automatically sized layer that ends is in X exactly if everything drawn on it is."
  },
  {
   "property": "C25",
   "status": "partial",
   "theorems": [
    "Verif.Props.Vm.c25_unused_layer_partial",
    "Verif.Props.Vm.c25_false_handlers",
    "Verif.Props.Vm.c25_false_main",
    "Verif.Props.Vm.c25_false_paste"
   ],
   "note": "False: the handlers of the empty layer stay in place, an empty main layer raises AssertionError, and pasting an empty layer fails. Proved: an empty layer that is not pasted changes nothing if the layer around it is automatically sized or no drawing command follows directly."
  },
  {
   "property": "C26",
   "status": "proved",
   "theorems": [
    "Verif.Props.Vm.c26_innermost",
    "Verif.Props.Vm.c26_balanced",
    "Verif.Props.Vm.c26_program"
   ],
   "note": "The mode invariant is proved for every command list without empty automatically sized layers; balanced programs are shown to be structured programs, and structured programs to have exactly their denotational meaning, errors included."
  },
  {
   "property": "C27",
   "status": "proved",
   "theorems": [
    "Verif.Props.BoxCenter.c27_center",
    "Verif.Props.BoxCenter.c27_center_back",
    "Verif.Props.Geom.c27_union_least",
    "Verif.Props.Geom.c27_union_points",
    "Verif.Props.Geom.c27_union_laws",
    "Verif.Props.Geom.c27_from_vectors",
    "Verif.Props.Geom.c27_translate",
    "Verif.Props.Geom.c27_empty_neutral",
    "Verif.Props.Geom.c27_empty_translate"
   ],
   "note": "Any linear order for the union laws, ordered fields for translation, extended reals for the default box. c27_center, c27_center_back: boxes made of a centre, a width and a height have them, and every box that is not inverted is such a box."
  },
  {
   "property": "C28",
   "status": "partial",
   "theorems": [
    "Verif.Props.Geom.c28_contains_partial",
    "Verif.Props.Geom.c28_least_partial",
    "Verif.Props.Geom.c28_full_ccw_turn_escapes",
    "Verif.Props.Geom.c28_not_tight"
   ],
   "note": "Containment proved for shapes of lines and arcs whose ends are equally far from the centre; full counter-clockwise turns are refuted. Minimality holds up to the centres of the arcs, and is refuted without them."
  },
  {
   "property": "C29",
   "status": "proved",
   "theorems": [
    "Verif.Props.Geom.c29_constructors_affine",
    "Verif.Props.Geom.c29_apply_matmul",
    "Verif.Props.Geom.c29_matmul_assoc",
    "Verif.Props.Geom.c29_named",
    "Verif.Props.Geom.c29_distances",
    "Verif.Props.Geom.c29_rotation"
   ],
   "note": ""
  },
  {
   "property": "C30",
   "status": "proved",
   "theorems": [
    "Verif.Props.Geom.c30_arc_transform",
    "Verif.Props.Geom.c30_test_as_written",
    "Verif.Props.Geom.c30_exact_quarter_turn"
   ],
   "note": "Exact image of the curve under mirror, rotation by any angle, scaling. The cosine that the code computes is never zero (no floating point number is an odd multiple of pi/2); in exact arithmetic it is zero for right angles, where the model takes the sign that neighbouring angles give (Mat.keepsSense). c30_test_as_written: for other angles the test of the model is the one of the code. c30_exact_quarter_turn shows why the literal test cannot be used with exact numbers."
  },
  {
   "property": "C31",
   "status": "partial",
   "theorems": [
    "Verif.Props.Geom.c31_angles_partial",
    "Verif.Props.Geom.c31_clockwise_can_be_360"
   ],
   "note": "Sum and ranges proved; the documented range of the clockwise angle is refuted."
  },
  {
   "property": "C32",
   "status": "partial",
   "theorems": [
    "Verif.Props.Shapes.c32_rectangle",
    "Verif.Props.Shapes.c32_circle",
    "Verif.Props.Shapes.c32_obround",
    "Verif.Props.Shapes.c32_line",
    "Verif.Props.Shapes.c32_thick_arc",
    "Verif.Props.Shapes.c32_connected_points",
    "Verif.Props.Shapes.c32_polygon_sides",
    "Verif.Props.Shapes.c32_polygon_partial",
    "Verif.Props.Shapes.c32_polygon_loses_corners"
   ],
   "note": "Rectangle, circle, obround, thick line, thick arc, connected points in full; regular polygons only when the base rotation is below one step, refuted otherwise."
  },
  {
   "property": "C33",
   "status": "proved",
   "theorems": [
    "Verif.Props.Board.c33_pads",
    "Verif.Props.Board.c33_order"
   ],
   "note": "All call histories without exceptions: the flashes are exactly the pads asked for (c33_pads); everything drawn is in call order (c33_order)."
  },
  {
   "property": "C34",
   "status": "partial",
   "theorems": [
    "Verif.Props.Board.c34_traces_partial",
    "Verif.Props.Board.c34_without_regions",
    "Verif.Props.Board.c34_false_line_drawn_as_arc"
   ],
   "note": "Proved for all boards in which no region that ends in another kind lies between two traces of the same kind; the code draws such a trace in the wrong mode (c34_false_line_drawn_as_arc), because RegionCreator.create does not record the mode it leaves behind."
  },
  {
   "property": "C35",
   "status": "partial",
   "theorems": [
    "Verif.Props.Board.c35_pads_and_regions",
    "Verif.Props.Board.c35_undisturbed_partial",
    "Verif.Props.Board.c35_false_disturbed"
   ],
   "note": "Pads and regions are never disturbed; traces are disturbed exactly in the case of c35_false_disturbed."
  },
  {
   "property": "C36",
   "status": "partial",
   "theorems": [
    "Verif.Props.Board.c36_refused_partial",
    "Verif.Props.Board.c36_false_never_selected",
    "Verif.Props.Board.c36_false_not_rotated"
   ],
   "note": "Proved for calls refused for any reason but an unrepresentable coordinate or a pad given as a location. For those the claim is false of the code: the state is recorded as written before packing raises."
  },
  {
   "property": "C37",
   "status": "proved",
   "theorems": [
    "Verif.Props.Board.c37_codes",
    "Verif.Props.Board.c37_macros"
   ],
   "note": "All histories, failed calls included; also macro names."
  },
  {
   "property": "C38",
   "status": "partial",
   "theorems": [
    "Verif.Props.Board.c38_attributes_partial",
    "Verif.Props.Board.c38_no_leak",
    "Verif.Props.Board.c38_false_standard_name"
   ],
   "note": "All histories. Missing only custom attributes named .AperFunction/.DrillTolerance, for which the claim is false (c38_false_standard_name)."
  },
  {
   "property": "C39",
   "status": "partial",
   "theorems": [
    "Verif.Props.Expr.c39_reads_back_partial",
    "Verif.Props.Expr.c39_default_exact_partial",
    "Verif.Props.Expr.c39_false_zero_places",
    "Verif.Props.Expr.c39_false_zero_places_zero"
   ],
   "note": "Exact with default settings for numbers Python prints positionally; correctly rounded with a number of places. Refuted for 0 places with trimming."
  },
  {
   "property": "C40",
   "status": "partial",
   "theorems": [
    "Verif.Props.Format.c40_format_parse_partial",
    "Verif.Props.Format.c40_default_partial",
    "Verif.Props.Format.c40_false_step_repeat",
    "Verif.Props.Format.c40_false_missing_fields",
    "Verif.Props.Format.c40_false_macro_named_like_standard",
    "Verif.Props.Format.c40_false_small_numbers"
   ],
   "note": "For every text the parser accepts and every option set that changes only blanks; missing: commands whose printed form loses parts (refuted by the false theorems) and numbers printed with exponents. Creation dates are read by a parameter with the stated law."
  },
  {
   "property": "C41",
   "status": "partial",
   "theorems": [
    "Verif.Props.Format.c41_idempotent_partial",
    "Verif.Props.Format.c41_default_partial",
    "Verif.Props.Format.c41_false_removed_indent"
   ],
   "note": "Missing: removal of G54/G55 combined with indentation (refuted), and the cases excluded in C40."
  },
  {
   "property": "C42",
   "status": "partial",
   "theorems": [
    "Verif.Props.Format.c42_header_partial",
    "Verif.Props.Format.c42_false_iff",
    "Verif.Props.Format.c42_false_partial_headers"
   ],
   "note": "Exact characterisation: right if and only if all four parameters or none are present; refuted otherwise."
  },
  {
   "property": "C43",
   "status": "proved",
   "theorems": [
    "Verif.Props.Color.c43_from_to",
    "Verif.Props.Color.c43_reads",
    "Verif.Props.Color.c43_canonical",
    "Verif.Props.Color.c43_rgba",
    "Verif.Props.Color.c43_fractions"
   ],
   "note": "Round trip, exact reading of every accepted text and canonical form. A single trailing newline is accepted, as the pattern is anchored with $. c43_rgba: colours are made of exactly the numbers 0 to 255. c43_fractions: channels as fractions are in [0, 1] and give the colour back."
  },
  {
   "property": "C44",
   "status": "partial",
   "theorems": [
    "Verif.Props.Finder.c44_flat_partial",
    "Verif.Props.Finder.c44_one_per_line_partial",
    "Verif.Props.Finder.c44_single_line_partial",
    "Verif.Props.Finder.c44_deep",
    "Verif.Props.Finder.c44_false_next_line",
    "Verif.Props.Finder.c44_false_before",
    "Verif.Props.Finder.c44_single_node"
   ],
   "note": "Proved for nodes starting at the same column in different lines (c44_one_per_line_partial) and single-line lists; refuted in general because only columns are compared (c44_false_next_line) and for positions before the first node."
  },
  {
   "property": "C45",
   "status": "partial",
   "theorems": [
    "Verif.Props.Lint.c45_delete_redundant_partial",
    "Verif.Props.Lint.c45_false_stop_in_sr",
    "Verif.Props.Lint.c45_reports_exactly",
    "Verif.Props.Lint.c45_first_not_reported"
   ],
   "note": "Proved for files with no program end inside a block or step and repeat; refuted there (c45_false_stop_in_sr)."
  },
  {
   "property": "C46",
   "status": "partial",
   "theorems": [
    "Verif.Props.Position.c46_order_partial",
    "Verif.Props.Position.c46_trichotomy_partial",
    "Verif.Props.Position.c46_false_ne",
    "Verif.Props.Position.c46_false_ge",
    "Verif.Props.Position.c46_false_le",
    "Verif.Props.Position.c46_actual",
    "Verif.Props.Position.c46_editor",
    "Verif.Props.Position.c46_offset"
   ],
   "note": "<, >, == agree with the lexicographic order; !=, >=, <= do not (refuted with witnesses), c46_actual says what they compute."
  },
  {
   "property": "C47",
   "status": "partial",
   "theorems": [
    "Verif.Props.Hover.c47_draw_partial",
    "Verif.Props.Hover.c47_flash_partial",
    "Verif.Props.Hover.c47_file_partial",
    "Verif.Props.Hover.c47_false_counter_clockwise",
    "Verif.Props.Hover.c47_false_clear",
    "Verif.Props.Hover.c47_false_region",
    "Verif.Props.Hover.c47_false_block",
    "Verif.Props.Hover.c47_false_omitted_offsets",
    "Verif.Props.Hover.c47_false_format_change",
    "Verif.Props.Hover.c47_false_no_decimals",
    "Verif.Props.Hover.c47_false_macro_again"
   ],
   "note": "Proved for files with one format statement with decimals, dark polarity, outside regions and blocks, clockwise or linear, I/J written: the preview draws what the file draws. Each restriction is shown necessary by a witness (counter-clockwise arcs, clear polarity, regions, blocks, omitted offsets, format change, no decimals, macro defined again)."
  },
  {
   "property": "C48",
   "status": "partial",
   "theorems": [
    "Verif.Props.Server.c48_served",
    "Verif.Props.Server.c48_answer_partial",
    "Verif.Props.Server.c48_settled",
    "Verif.Props.Server.c48_false_closing"
   ],
   "note": "Every answer is that of a text the document had between the arrival of the request and the answer, over all interleavings of arrivals, cancellations and handler runs, with failing parses and hash collisions; excluded and refuted: a document closed before the request is answered (then the text on disk is used). Documents are served exactly when their file name contains '.g' (c48_served)."
  },
  {
   "property": "C49",
   "status": "proved",
   "theorems": [
    "Verif.Props.Server.c49_never_blocked",
    "Verif.Props.Server.c49_all_handled",
    "Verif.Props.Server.c49_bound"
   ],
   "note": "All interleavings of arrivals, cancellations and runs; coroutines as trees with blocking thread locks and suspending asyncio locks; any computation may raise."
  },
  {
   "property": "C50",
   "status": "partial",
   "theorems": [
    "Verif.Props.GerberFile.c50_default_map",
    "Verif.Props.GerberFile.c50_alpha_map_partial",
    "Verif.Props.GerberFile.c50_false_drillmap"
   ],
   "note": "With DEFAULT_COLOR_MAP no call can miss a style, for all types, sources and histories. DEFAULT_ALPHA_COLOR_MAP, the default, lacks drill maps (refuted)."
  },
  {
   "property": "C51",
   "status": "partial",
   "theorems": [
    "Verif.Props.Project.c51_views_partial",
    "Verif.Props.Project.c51_profile_topmost",
    "Verif.Props.Project.c51_inner_by_number_partial",
    "Verif.Props.Project.c51_false_inner_order"
   ],
   "note": "Contents and order of all views, profile topmost; inner views are ordered by the text of the layer number, which is not numeric order (refuted)."
  },
  {
   "property": "C52",
   "status": "partial",
   "theorems": [
    "Verif.Props.GerberFile.c52_transparent_partial",
    "Verif.Props.GerberFile.c52_false_remembered_type",
    "Verif.Props.GerberFile.c52_false_file_type"
   ],
   "note": "All histories, failures included, for arbitrary parse/compile/render functions. Refuted for types inferred from attributes that change with parser options, and for the property file_type."
  },
  {
   "property": "C53",
   "status": "partial",
   "theorems": [
    "Verif.Props.Composite.c53_fits_partial",
    "Verif.Props.Composite.c53_aligned_partial",
    "Verif.Props.Composite.c53_placed_partial",
    "Verif.Props.Composite.c53_false_inches",
    "Verif.Props.Composite.c53_false_straddling",
    "Verif.Props.Composite.c53_false_units",
    "Verif.Props.Composite.c53_false_empty"
   ],
   "note": "Files in one unit: exact fit for boxes not straddling an axis and for pixel-aligned boxes in millimetres; at most one row and column is cut off otherwise (c53_fits_partial); offsets are the distances in millimetres up to two pixels (c53_placed_partial). Refuted for straddling boxes, mixed units, the size of pictures in inches and empty views."
  },
  {
   "property": "C54",
   "status": "partial",
   "theorems": [
    "Verif.Props.Arcs.c54_shapely_partial",
    "Verif.Props.Arcs.c54_pillow_partial",
    "Verif.Props.Arcs.c54_false_clockwise_loops",
    "Verif.Props.Arcs.c54_false_full_turn",
    "Verif.Props.Arcs.c54_false_pillow_full_turn",
    "Verif.Props.Arcs.c54_close_partial",
    "Verif.Props.Arcs.c54_shapely_outline_partial",
    "Verif.Props.Arcs.c54_pillow_outline_partial"
   ],
   "note": "Shapely and Pillow point generation modelled over the reals with fuel; arcs that are not full turns: termination, points on the arc in order, step bound, closeness, whole outlines. Full turns fail: infinite loop (Shapely, clockwise), single point (Shapely, counter-clockwise), assertion (Pillow)."
  },
  {
   "property": "C55",
   "status": "proved",
   "theorems": [
    "Verif.Props.Painting.c55_shapely",
    "Verif.Props.Painting.c55_shapes",
    "Verif.Props.Painting.c55_pillow"
   ],
   "note": "Refinement of both backends, for every VM program, to a machine that lists painted objects; GEOS/Pillow primitives are parameters (polygon region / polygon fill) with the laws stated in Model/Render.lean."
  },
  {
   "property": "C56",
   "status": "partial",
   "theorems": [
    "Verif.Props.State.c56_offsets_given_partial",
    "Verif.Props.State.c56_false_omitted"
   ],
   "note": "Offsets given in the command in full; omitted ones are refuted (stale value of an earlier arc)."
  },
  {
   "property": "C57",
   "status": "proved",
   "theorems": [
    "Verif.Props.Color.c57_hsv"
   ],
   "note": "Hue is any rational; levels are exact, rounding half to even as Python's round."
  },
  {
   "property": "C58",
   "status": "partial",
   "theorems": [
    "Verif.Props.Format.c58_decimals_partial",
    "Verif.Props.Format.c58_false_no_effect",
    "Verif.Props.Format.c58_false_trimmed"
   ],
   "note": "The option has no effect; the claim holds only for numbers whose last decimal is not zero."
  },
  {
   "property": "C59",
   "status": "partial",
   "theorems": [
    "Verif.Props.Format.c59_same_commands_partial",
    "Verif.Props.Format.c59_false_empty",
    "Verif.Props.Format.c59_false_explicit_parenthesis"
   ],
   "note": "All options at once except explicit parentheses (refuted: parentheses stay) and zero decimal places (see C39); at least one command must be left (refuted otherwise)."
  },
  {
   "property": "C60",
   "status": "partial",
   "theorems": [
    "Verif.Props.Hover.c60_state",
    "Verif.Props.Hover.c60_report_partial",
    "Verif.Props.Hover.c60_false_centre",
    "Verif.Props.Hover.c60_false_in_block"
   ],
   "note": "The state is that of exactly the commands before the cursor, and start, end, modes, aperture, transform shown are those drawn with, outside blocks. False: the \"centre\" shown is the offset; inside an AB or SR body the state shown is that before the block."
  },
  {
   "property": "C61",
   "status": "partial",
   "theorems": [
    "Verif.Props.Stroke.c61_stroke_partial",
    "Verif.Props.Stroke.c61_arc_partial",
    "Verif.Props.Stroke.c61_false_scaled",
    "Verif.Props.Stroke.c61_false_rectangle",
    "Verif.Props.Stroke.c61_false_single_quadrant"
   ],
   "note": "Proved for round apertures that are not scaled, for straight draws and for circular draws in multi-quadrant mode (whole circles and apertures wider than the circle included), all histories and points. False: LS scaling is ignored by draws (c61_false_scaled); rectangular apertures are drawn with round ends (c61_false_rectangle); in single-quadrant mode circular draws paint nothing (c61_false_single_quadrant). An I or J that is left out is C56."
  },
  {
   "property": "C62",
   "status": "partial",
   "theorems": [
    "Verif.Props.View.c62_same_drawing_partial",
    "Verif.Props.View.c62_same_state_partial",
    "Verif.Props.View.c62_false_minus_plus",
    "Verif.Props.View.c62_false_step_repeat",
    "Verif.Props.View.c62_false_copies_lost"
   ],
   "note": "Proved for all sources and options, explicit parentheses included, under the conditions of C59 and C13. False without them: a step and repeat with missing parameters is printed with the word None (c62_false_step_repeat) or loses its copies (c62_false_copies_lost); with explicit parentheses -(+$2) is printed as text that is not accepted (c62_false_minus_plus)."
  },
  {
   "property": "C63",
   "status": "partial",
   "theorems": [
    "Verif.Props.View.c63_deleted_partial",
    "Verif.Props.View.c63_false_cmpn"
   ],
   "note": "Proved in every state for all attributes but .CMPN, which is stored as .CMNP and so stays attached (c63_false_cmpn)."
  },
  {
   "property": "C64",
   "status": "proved",
   "theorems": [
    "Verif.Props.Image.c64_image",
    "Verif.Props.Image.c64_determined"
   ],
   "note": "End to end over the visitor, compiler, virtual machine and Shapely backend, for all files; the polygon of an outline is C54, what the layers hold is C17-C22 and C61. c64_determined: the specification determines the image."
  },
  {
   "property": "C65",
   "status": "partial",
   "theorems": [
    "Verif.Props.MacroShape.c65_primitive_partial",
    "Verif.Props.MacroShape.c65_definition_partial",
    "Verif.Props.MacroShape.c65_flash_partial",
    "Verif.Props.MacroShape.c65_thermal_partial",
    "Verif.Props.MacroShape.c65_false_polygon",
    "Verif.Props.MacroShape.c65_false_moire",
    "Verif.Props.MacroShape.c65_false_moire_room",
    "Verif.Props.MacroShape.c65_false_thermal"
   ],
   "note": "Proved for standard apertures (hole not larger than the aperture, polygon rotation less than one step up to full turns) and all macro primitives with arbitrary expressions, and for flashes of them under mirroring, rotation (any angle) and scaling. False: rotated polygon primitives are rotated twice (c65_false_polygon); moirés raise or draw a stray disc (c65_false_moire, c65_false_moire_room); thermals with a wide gap vanish (c65_false_thermal)."
  },
  {
   "property": "C66",
   "status": "partial",
   "theorems": [
    "Verif.Props.Dump.c66_same_drawing_partial",
    "Verif.Props.Dump.c66_commands_partial",
    "Verif.Props.Dump.c66_attributes_partial",
    "Verif.Props.Dump.c66_false_small",
    "Verif.Props.Dump.c66_false_delimiters",
    "Verif.Props.Dump.c66_false_tabs"
   ],
   "note": "Proved for all calls whose numbers are written without an exponent (0, or from 0.0001 to below 10^16, finite decimals) and whose attribute values have no delimiters; the comparison with the commands of C33-C38 and the attributes also need that no thermal is used (its layer is named after the identity of an object). False otherwise: c66_false_small, c66_false_delimiters, and for attribute values with tabs (c66_false_tabs)."
  },
  {
   "property": "C67",
   "status": "partial",
   "theorems": [
    "Verif.Props.Prefixes.c67_recovers",
    "Verif.Props.Resilient.c67_strict_same",
    "Verif.Props.Resilient.c67_never_refused_partial",
    "Verif.Props.Resilient.c67_false_blank",
    "Verif.Props.Resilient.c67_false_raises",
    "Verif.Props.Resilient.c67_unreadable",
    "Verif.Props.Resilient.c67_readable",
    "Verif.Props.Resilient.c67_raises",
    "Verif.Props.Resilient.c67_recovers_partial"
   ],
   "note": "The resilient parser is characterised completely by the strict one (c67_readable, c67_unreadable, c67_raises); correct files are read in the same way (c67_strict_same); recovery is proved for formatted files with lines without tabs between them that cannot be taken for a command. False: blank texts are refused (c67_false_blank); a value that is not allowed makes the whole file unreadable (c67_false_raises). c67_recovers: the same for every text that spells commands with unreadable lines between them (Spec/Broken), after the expansion of tabs."
  },
  {
   "property": "C68",
   "status": "partial",
   "theorems": [
    "Verif.Props.Spans.c68_same_nodes",
    "Verif.Props.Spans.c68_same_entries",
    "Verif.Props.Spans.c68_positions",
    "Verif.Props.Spans.c68_positions_resilient",
    "Verif.Props.Spans.c68_shape",
    "Verif.Props.Spans.c68_shape_resilient",
    "Verif.Props.Spans.c68_read_again",
    "Verif.Props.Spans.c68_read_again_resilient",
    "Verif.Props.Spans.c68_apart",
    "Verif.Props.Spans.c68_range_partial",
    "Verif.Props.Spans.c68_false_blanks",
    "Verif.Props.Spans.c68_finder",
    "Verif.Props.Spans.c68_finder_resilient",
    "Verif.Props.Spans.c68_line_column",
    "Verif.Props.Spans.c68_tabs",
    "Verif.Props.Spans.c68_tabs_lines",
    "Verif.Props.Spans.c68_false_tabs"
   ],
   "note": "Order, nesting, blanks between nodes, location of every node at every depth and the rule of the finder are proved for every text and both parsers. Reading again from a location is proved for nodes at the top of the file, except D codes that are joined to the G code before them. The range of a node contains its command if the command has no blanks in it (c68_range_partial); otherwise it is too short (c68_false_blanks). Positions count in the text with tabs expanded (c68_tabs); lines are those of the code (c68_tabs_lines), columns are not (c68_false_tabs)."
  },
  {
   "property": "C69",
   "status": "partial",
   "theorems": [
    "Verif.Props.SourceHash.c69_check_partial",
    "Verif.Props.SourceHash.c69_prefix",
    "Verif.Props.SourceHash.c69_line_ends",
    "Verif.Props.SourceHash.c69_false_same_line",
    "Verif.Props.SourceHash.c69_false_first",
    "Verif.Props.SourceHash.c69_false_tabs"
   ],
   "note": "Proved for texts without tabs in which a line break stands directly before the command. False otherwise: on the same line as another command the last character is left out (c69_false_same_line), at the beginning of the file everything but the last character is digested (c69_false_first), tabs are expanded before (c69_false_tabs)."
  },
  {
   "property": "C70",
   "status": "partial",
   "theorems": [
    "Verif.Props.Linter.c70_reports",
    "Verif.Props.Linter.c70_where",
    "Verif.Props.Linter.c70_order",
    "Verif.Props.Linter.c70_select",
    "Verif.Props.Linter.c70_each",
    "Verif.Props.Linter.c70_names",
    "Verif.Props.Linter.c70_command_line",
    "Verif.Props.Linter.c70_every",
    "Verif.Props.Linter.c70_removed_partial"
   ],
   "note": "Reports, places, order, independence of rules and selection by name are proved for every text that parses. c70_removed_partial (no report after formatting with removal) has the conditions of C59."
  },
  {
   "property": "C71",
   "status": "partial",
   "theorems": [
    "Verif.Props.FormatCommand.c71_other_files",
    "Verif.Props.FormatCommand.c71_repeat_partial",
    "Verif.Props.FormatCommand.c71_output",
    "Verif.Props.FormatCommand.c71_success_partial",
    "Verif.Props.FormatCommand.c71_false_in_place",
    "Verif.Props.FormatCommand.c71_false_old_output",
    "Verif.Props.FormatCommand.c71_false_killed"
   ],
   "note": "The output is truncated before the source is parsed: a source with an error empties the output, and the source itself when formatting in place (c71_false_in_place, c71_false_old_output); a killed run can leave a file that reads as a smaller drawing (c71_false_killed). Proved: other files are never touched, repetition, and successful runs under the conditions of C62."
  },
  {
   "property": "C72",
   "status": "partial",
   "theorems": [
    "Verif.Props.ShapeCache.c72_boxes_partial",
    "Verif.Props.ShapeCache.c72_false_stale"
   ],
   "note": "Proved for histories in which no shape is transformed after its box was asked for, as in compiling and then rendering. Otherwise the copy keeps the box of the original (c72_false_stale)."
  },
  {
   "property": "C73",
   "status": "partial",
   "theorems": [
    "Verif.Props.Completion.c73_offer",
    "Verif.Props.Completion.c73_nothing",
    "Verif.Props.Completion.c73_apertures",
    "Verif.Props.Completion.c73_next",
    "Verif.Props.Completion.c73_accepted_shapes",
    "Verif.Props.Completion.c73_accepted_polygons",
    "Verif.Props.Completion.c73_accepted_settings",
    "Verif.Props.Completion.c73_g_codes_partial",
    "Verif.Props.Completion.c73_false_g_codes",
    "Verif.Props.Completion.c73_false_unclosed",
    "Verif.Props.Completion.c73_reply",
    "Verif.Props.Completion.c73_false_first",
    "Verif.Props.Completion.c73_false_elsewhere",
    "Verif.Props.Completion.c73_false_below",
    "Verif.Props.Completion.c73_false_twice",
    "Verif.Props.Completion.c73_false_tabs"
   ],
   "note": "Proved for every text and every cursor in the text with tabs expanded: which list is offered, that aperture labels are exactly the defined codes, that the fresh code exceeds all of them, and that what is offered is read back. Fails behind tabs, for the first definition of a document, with mistakes in the execution of other lines, for six G codes offered without `*`, on blank lines below an unreadable one, and offers codes twice that are both AD and AB (c73_false_*)."
  },
  {
   "property": "C74",
   "status": "partial",
   "theorems": [
    "Verif.Props.Picture.c74_picture_partial"
   ],
   "note": "Proved against a separate reading of the commands (Verif.Spec.Picture) that knows nothing of layers and copies, for every file and nesting, with exact areas of the shapes. Excluded are what other theorems refute (structure Avoids: codes defined twice, clear flashes of blocks, scaled draws, repetitions that end elsewhere than at the origin) and draws outside of regions that are not made with a solid circle."
  },
  {
   "property": "C75",
   "status": "partial",
   "theorems": [
    "Verif.Props.Console.c75_refused",
    "Verif.Props.Console.c75_blamed_partial",
    "Verif.Props.Console.c75_convert_partial",
    "Verif.Props.Console.c75_colours",
    "Verif.Props.Console.c75_type_colours_partial",
    "Verif.Props.Console.c75_merge_partial",
    "Verif.Props.Console.c75_false_no_sources",
    "Verif.Props.Console.c75_false_non_plated",
    "Verif.Props.Console.c75_false_blamed"
   ],
   "note": "Proved for every command line but for three faults that are refuted: NON_PLATED is a choice of -t but is taken for an undefined type, a foreground that is not a colour is reported as a fault of --background, and merging no sources raises an exception instead of being refused."
  },
  {
   "property": "C76",
   "status": "partial",
   "theorems": [
    "Verif.Props.Walk.c76_tour",
    "Verif.Props.Walk.c76_base",
    "Verif.Props.Walk.c76_every_node_once",
    "Verif.Props.Walk.c76_end_of_file",
    "Verif.Props.Walk.c76_tolerant",
    "Verif.Props.Walk.c76_raises",
    "Verif.Props.Walk.c76_listeners_partial",
    "Verif.Props.Walk.c76_listener_partial",
    "Verif.Props.Walk.c76_type_names",
    "Verif.Props.Walk.c76_primitive_names",
    "Verif.Props.Walk.c76_false_called_twice",
    "Verif.Props.Walk.c76_false_file_twice",
    "Verif.Props.Walk.c76_false_base"
   ],
   "note": "Visitors in full, for arbitrary methods and exceptions. Listeners: called once only for types outside of groups; refuted for aperture definitions, attributes, expressions, coordinates and files (called twice, c76_false_called_twice, c76_false_file_twice) and for base classes such as AD (never called, c76_false_base). c76_type_names and c76_primitive_names tie the names of the node types to what the formatter writes for them. c76_base: the base class changes and raises nothing."
  },
  {
   "property": "C77",
   "status": "partial",
   "theorems": [
    "Verif.Props.Svg.c77_shown_partial",
    "Verif.Props.Svg.c77_empty",
    "Verif.Props.Svg.c77_file_partial",
    "Verif.Props.Svg.c77_false_opacity",
    "Verif.Props.Svg.c77_save_partial",
    "Verif.Props.Svg.c77_false_open_file",
    "Verif.Props.Svg.c77_false_encoding",
    "Verif.Props.Svg.c77_false_keyword"
   ],
   "note": "The document, its frame, the flip, the fill at every point and the absence of outlines are proved for all geometries, by reading the text with a reader of XML and SVG; c77_file_partial composes this with C64, from the commands to the drawing. Refuted: the colour (opacity 0.6 even if it is opaque, c77_false_opacity), open files (c77_false_open_file), encodings with a byte order mark (c77_false_encoding), the encoding asked of an image (c77_false_keyword). c77_save_partial: the same through save, with every spelling of the format."
  },
  {
   "property": "C78",
   "status": "partial",
   "theorems": [
    "Verif.Props.Raster.c78_mean",
    "Verif.Props.Raster.c78_program",
    "Verif.Props.Raster.c78_image",
    "Verif.Props.Raster.c78_saved",
    "Verif.Props.Raster.c78_false_webp",
    "Verif.Props.Raster.c78_view_partial",
    "Verif.Props.Raster.c78_files_partial",
    "Verif.Props.Raster.c78_false_translucent"
   ],
   "note": "From the commands of a file to the colour of each pixel, for all files, resolutions and styles (c78_image), with the byte arithmetic of the image library (c78_mean). Formats in full (c78_saved). Views for styles of opaque and fully transparent colours. Refuted: translucent colours in views (alpha is multiplied by itself, c78_false_translucent), transparency in WEBP (c78_false_webp)."
  },
  {
   "property": "C79",
   "status": "partial",
   "theorems": [
    "Verif.Props.Config.c79_applied",
    "Verif.Props.Config.c79_default",
    "Verif.Props.Config.c79_refused",
    "Verif.Props.Config.c79_exact",
    "Verif.Props.Config.c79_same_drawing_partial",
    "Verif.Props.Config.c79_presets_partial",
    "Verif.Props.Config.c79_false_unknown",
    "Verif.Props.Config.c79_false_values",
    "Verif.Props.Config.c79_false_default"
   ],
   "note": "Documented configurations are applied (c79_applied), refused commands change no file (c79_refused), and c79_exact says exactly what is accepted and what it is taken for. c79_same_drawing_partial and c79_presets_partial compose with C62. Refuted: misspelt names are ignored (c79_false_unknown), any text is taken for an indentation and can make the output unreadable, booleans are taken for numbers (c79_false_values), and one default differs from the documentation (c79_false_default)."
  },
  {
   "property": "C80",
   "status": "partial",
   "theorems": [
    "Verif.Props.Metadata.c80_same",
    "Verif.Props.Metadata.c80_off",
    "Verif.Props.Metadata.c80_file",
    "Verif.Props.Metadata.c80_sources",
    "Verif.Props.Metadata.c80_complete_partial",
    "Verif.Props.Metadata.c80_written",
    "Verif.Props.Metadata.c80_objects_partial",
    "Verif.Props.Metadata.c80_apertures_partial",
    "Verif.Props.Metadata.c80_copies",
    "Verif.Props.Metadata.c80_block_copies",
    "Verif.Props.Metadata.c80_repeats",
    "Verif.Props.Metadata.c80_false_region",
    "Verif.Props.Metadata.c80_false_block",
    "Verif.Props.Metadata.c80_false_target"
   ],
   "note": "Same program (c80_same, c80_written), nothing without the option (c80_off), file attributes (c80_file), nothing made up (c80_sources), copies keep metadata (c80_copies, c80_block_copies, c80_repeats). Partial: draws outside regions and flashes of AD apertures (c80_objects_partial), apertures without moires and thermals (c80_apertures_partial), and files without both (c80_complete_partial). Refuted: regions (c80_false_region), flashes of blocks (c80_false_block), moires and thermals (c80_false_target). An attribute is the text that stands for its node, not its JSON text."
  },
  {
   "property": "C81",
   "status": "partial",
   "theorems": [
    "Verif.Props.Pixels.c81_pixels_partial",
    "Verif.Props.Pixels.c81_millimetres",
    "Verif.Props.Pixels.c81_size_partial",
    "Verif.Props.Pixels.c81_false_inches"
   ],
   "note": "Place (c81_pixels_partial: no arcs that start where they end, whose boxes are wrong, see C28), units and size (c81_size_partial: files in millimetres; c81_millimetres). Refuted for files in inches (c81_false_inches). How the image library fills polygons is a hypothesis (FillsEvenOdd), not modelled."
  },
  {
   "property": "C82",
   "status": "partial",
   "theorems": [
    "Verif.Props.Enclosed.c82_image_partial",
    "Verif.Props.Enclosed.c82_plain_partial"
   ],
   "note": "c82_plain_partial composes the visitor, compiler, virtual machine, Pillow backend and image conversion against the pictures of C74 (Spec.Pictured). Excluded: the constructs refuted elsewhere (Avoids, as in C74), apertures and circles or polygons of macros without a size, circles moved along arcs smaller than themselves, and contours of regions and outlines in macros that do not go round once. c82_image_partial has, in place of the last three, the hypothesis that the outlines of the layers go round once. How the image library fills polygons is a hypothesis (FillsEvenOdd), not modelled. Not a statement about pixels near outlines."
  },
  {
   "property": "C83",
   "status": "partial",
   "theorems": [
    "Verif.Props.BoardImage.c83_board_partial"
   ],
   "note": "c83_board_partial composes C33-C35 (the commands of the builder), C66 (their text), C74 (the picture of the commands) and C82 (its pixels). The picture asked for is Spec.Board.Asked, a set of points for each object of Spec.Board.wishOf. Excluded: calls that fail; numbers and attributes outside of C66, and thermals; a trace after a region that ends in another kind (C34); pads scaled by zero, shapes without a size or with holes that outsize them (C65), arcs with different radii at their ends or outsized by their width, and regions that do not go round once. Small numbers and delimiters in attributes are refuted in C66, traces after regions in C34; nothing is said of pixels near outlines."
  },
  {
   "property": "C84",
   "status": "partial",
   "theorems": [
    "Verif.Props.Vector.c84_geometry_partial",
    "Verif.Props.Vector.c84_default_partial",
    "Verif.Props.Vector.c84_svg_partial",
    "Verif.Props.Vector.c84_board_partial"
   ],
   "note": "c84_geometry_partial composes C64 (layers and objects), C54 (chords of arcs), the refinement of polygons of C82 and C74 (the picture of the commands); c84_svg_partial adds C77 (the drawing), c84_board_partial C33-C35 and C66 (boards of the builder), c84_default_partial the default division of arcs. Excluded as in C82: constructs in which the code is known to deviate from the picture (C74), apertures without a size, circles moved along arcs that they outsize, contours that do not go round once. That buffer(0) of a polygon gives its inside by the even-odd rule is assumed of the geometry library for the polygons of the outlines drawn. Nothing is said of the points between arcs and chords."
  },
  {
   "property": "C85",
   "status": "proved",
   "theorems": [
    "Verif.Props.Written.c85_read_is_written"
   ],
   "note": "Spec/Written.lean gives the spellings as languages (Mathlib.Computability.Language) and the relation Spelled between lists of commands and texts; tabs are expanded first (Expanded of C68). Default syntax switches; dates are read by a parameter; floats in attributes as in floatText."
  },
  {
   "property": "C86",
   "status": "proved",
   "theorems": [
    "Verif.Props.Written.c86_written_is_read",
    "Verif.Props.Written.c86_exactly",
    "Verif.Props.Written.c86_unambiguous",
    "Verif.Props.Written.c86_standard_name"
   ],
   "note": "Converse of C85 over the same specification Spec/Written.lean: c86_written_is_read, c86_exactly (both directions), c86_unambiguous. c86_standard_name shows why apertures made with a macro named like a standard shape are left out."
  },
  {
   "property": "C87",
   "status": "proved",
   "theorems": [
    "Verif.Props.Prefixes.c87_prefix",
    "Verif.Props.Prefixes.c87_resilient",
    "Verif.Props.Prefixes.c87_stops"
   ],
   "note": "c87_prefix and c87_resilient: the spelled commands, then the rest on its own; c87_stops: nothing that is spelled is left. On texts whose tabs are expanded. Apertures made with a macro named C, R, O or P are left out as in C86."
  },
  {
   "property": "C88",
   "status": "partial",
   "theorems": [
    "Verif.Props.TextImage.c88_raster_partial",
    "Verif.Props.TextImage.c88_geometry_partial",
    "Verif.Props.TextImage.c88_same_image_partial"
   ],
   "note": "c88_raster_partial and c88_geometry_partial: C86 composed with C82 and C84, with their exclusions (constructs refuted elsewhere, outlines that go round once, macro apertures named C, R, O or P); c88_same_image_partial: independence of the way of writing."
  },
  {
   "property": "C89",
   "status": "partial",
   "theorems": [
    "Verif.Props.Correct.c89_compiles_partial",
    "Verif.Props.Correct.c89_renders_partial",
    "Verif.Props.Outlined.c89_geometry_partial",
    "Verif.Props.Rendered.c89_raster_partial",
    "Verif.Props.TextCorrect.c89_text_partial"
   ],
   "note": "c89_compiles_partial: total correctness of the visitor and the compiler; c89_renders_partial: of the virtual machine with exact areas, joined to C74; c89_raster_partial: of the Pillow backend, joined to C82 (pixels away from outlines); c89_geometry_partial: of the Shapely backend, joined to C84; c89_text_partial: from the text to the pixels, joined to C86. Partial: for files with a picture as prescribed by `Pictured` that avoid the constructs refuted elsewhere; that nothing is flashed that is empty is sufficient, not necessary."
  },
  {
   "property": "C90",
   "status": "partial",
   "theorems": [
    "Verif.Props.Sketch.c90_picture_partial",
    "Verif.Props.Sketch.c90_geometry_partial",
    "Verif.Props.Sketch.c90_false_polygon",
    "Verif.Props.Sketch.c90_raster_partial"
   ],
   "note": "c90_picture_partial: total correctness of builder and virtual machine with exact areas; c90_geometry_partial: of the Shapely backend (points away from outlines); c90_raster_partial: of the Pillow backend (success, box of the image, colors of pixels away from outlines; nested layers sized automatically); c90_false_polygon: polygons turned by more than one step lose corners. Partial: for scripts that use the builder as it is meant to be used (Spec.AskedFor; misuses are in C23) and polygons turned by less than one step."
  },
  {
   "property": "C91",
   "status": "partial",
   "theorems": [
    "Verif.Props.Highlight.c91_partition",
    "Verif.Props.Highlight.c91_words_partial",
    "Verif.Props.Highlight.c91_false_marks",
    "Verif.Props.Highlight.c91_false_signed",
    "Verif.Props.Highlight.c91_false_load",
    "Verif.Props.Highlight.c91_false_comment"
   ],
   "note": "c91_partition: for every text. c91_words_partial: the kinds of all tokens of texts of correct words (Spec.Highlight). c91_false_marks: every text with a * or a % has error tokens; c91_false_signed: so have negative coordinates and apertures with four digits. c91_false_load: the codes of LP, LM, LR, LS and LN are errors; c91_false_comment: comments are marked like commands. Missing in c91_words_partial: texts of comments and attributes, expressions of templates."
  },
  {
   "property": "C92",
   "status": "partial",
   "theorems": [
    "Verif.Props.Highlight.c92_docs_partial",
    "Verif.Props.Highlight.c92_false_unset"
   ],
   "note": "c92_docs_partial: in full when the environment variable is set; c92_false_unset: without MKDOCS_MODE the lexer raises KeyError on every text."
  },
  {
   "property": "C93",
   "status": "proved",
   "theorems": [
    "Verif.Props.RvmcJson.c93_read",
    "Verif.Props.RvmcJson.c93_injective",
    "Verif.Props.RvmcJson.c93_line"
   ],
   "note": "c93_read: the text is JSON (reader of RFC 8259 in Spec.RvmcJson) and contains the very program, with metadata; c93_injective; c93_line: one line. For finite numbers; that the serializer writes numbers so that they are read again is the hypothesis Readable."
  },
  {
   "property": "C94",
   "status": "partial",
   "theorems": [
    "Verif.Props.HoverText.c94_written",
    "Verif.Props.HoverText.c94_attribute_partial",
    "Verif.Props.HoverText.c94_text_partial",
    "Verif.Props.HoverText.c94_false_name",
    "Verif.Props.HoverText.c94_false_flash",
    "Verif.Props.HoverText.c94_false_ticks",
    "Verif.Props.HoverText.c94_false_none",
    "Verif.Props.HoverText.c94_section_partial",
    "Verif.Props.HoverText.c94_definition_partial",
    "Verif.Props.HoverText.c94_false_own"
   ],
   "note": "c94_written: the names and values of the specification are those written in Gerber. c94_attribute_partial: code spans (as in CommonMark) are the name and all values, for values without backticks and line ends; c94_text_partial for .FlashText, .C and .CMPN, where c94_false_name and c94_false_flash show what is missing; c94_section_partial: all attributes are listed; c94_definition_partial: the facts of aperture definitions, for numbers written without exponent. c94_false_own: the attributes of the hovered aperture itself are not found."
  },
  {
   "property": "C95",
   "status": "partial",
   "theorems": [
    "Verif.Props.FileKind.c95_suffix",
    "Verif.Props.FileKind.c95_suffix_total",
    "Verif.Props.FileKind.c95_letters",
    "Verif.Props.FileKind.c95_false_numbered",
    "Verif.Props.FileKind.c95_function",
    "Verif.Props.FileKind.c95_no_function",
    "Verif.Props.FileKind.c95_style"
   ],
   "note": "c95_suffix, c95_suffix_total, c95_letters: suffixes; c95_function, c95_no_function: the attribute; c95_style: the style of rendered images is that of the kind the specification (Spec.FileKind.Kind) gives. c95_false_numbered: numbered suffixes in capitals, mechanical layers."
  },
  {
   "property": "C96",
   "status": "partial",
   "theorems": [
    "Verif.Props.JobFile.c96_loads",
    "Verif.Props.JobFile.c96_project",
    "Verif.Props.JobFile.c96_missing",
    "Verif.Props.JobFile.c96_spellings",
    "Verif.Props.JobFile.c96_false_constructed"
   ],
   "note": "c96_loads: exactly the valid jobs are loaded; c96_project: the views hold the files read beside the job file; c96_missing: missing files are reported; c96_spellings: which texts mean the same path. Refuted: constructing a job in memory always raises TypeError (c96_false_constructed)."
  },
  {
   "property": "C97",
   "status": "proved",
   "theorems": [
    "Verif.Props.LintCommand.c97_clear",
    "Verif.Props.LintCommand.c97_printed",
    "Verif.Props.LintCommand.c97_stops",
    "Verif.Props.LintCommand.c97_refused",
    "Verif.Props.LintCommand.c97_listed"
   ],
   "note": "c97_printed: one line per report and no other; c97_clear: a line determines file, line, column, rule and message; c97_stops: failures keep the reports before; c97_refused: no files or unknown rules; c97_listed: the rules listed are those that can be selected."
  }
 ]
}