{"id": "C01", "title": "Packing then unpacking a coordinate loses only sub-resolution detail", "statement": "For every coordinate format with at least one integer and one decimal digit, in either zero-omission mode and on either axis, if packing a number v succeeds then unpacking the packed text succeeds and yields v rounded to the format's number of decimals; in particular the error is at most half of the last decimal place, and a v that already is a multiple of the resolution comes back exactly.", "quantifier": "every integer/decimal digit count, every zero-omission mode, every number v", "why_tests_cant": "the number of (format, value) pairs is infinite; rounding, sign, leading and trailing zero stripping interact at boundaries that samples miss", "anchors": ["src/pygerber/gerber/ast/state_tracking_visitor.py::CoordinateFormat.pack_x", "src/pygerber/gerber/ast/state_tracking_visitor.py::CoordinateFormat.unpack_x", "src/pygerber/gerber/ast/state_tracking_visitor.py::_pack_skip_leading", "src/pygerber/gerber/ast/state_tracking_visitor.py::_pack_skip_trailing"]}
{"id": "C02", "title": "Packed text is a stable representation of what was read", "statement": "For every packed coordinate text accepted by a format, packing the number it denotes in the same format succeeds and the result denotes exactly the same number.", "quantifier": "every accepted text in every format and zero-omission mode", "why_tests_cant": "all texts up to the digit limit in all formats cannot be enumerated; leading/trailing zero stripping can silently change the magnitude", "anchors": ["src/pygerber/gerber/ast/state_tracking_visitor.py::CoordinateFormat.unpack_x", "src/pygerber/gerber/ast/state_tracking_visitor.py::CoordinateFormat.pack_x"]}
{"id": "C03", "title": "Unpacking decodes positional notation and rejects exactly the malformed lengths", "statement": "Unpacking a text made of an optional sign and digits fails with 'too short' exactly when there is no digit, with 'too long' exactly when there are more digits than the format holds, and otherwise yields sign*digits*10^-decimals when leading zeros are omitted, and sign*digits*10^(integers - number of digits) when trailing zeros are omitted. Adding redundant leading (resp. trailing) zeros that still fit never changes the value.", "quantifier": "every sign/digit text and every format", "why_tests_cant": "unbounded number of texts and formats; off-by-one errors in padding only show at particular lengths", "anchors": ["src/pygerber/gerber/ast/state_tracking_visitor.py::CoordinateFormat._unpack_skip_leading", "src/pygerber/gerber/ast/state_tracking_visitor.py::CoordinateFormat._unpack_skip_trailing", "src/pygerber/gerber/ast/state_tracking_visitor.py::CoordinateFormat._preprocess"]}
{"id": "C04", "title": "Packing rejects exactly the numbers that do not fit", "statement": "For every format with at least one decimal digit, packing v raises 'too long' exactly when v rounded to the format's decimals needs more integer digits than the format holds (a lone zero counts as one digit); every other number is packed to a text of at most integer+decimal digits plus an optional sign.", "quantifier": "every format, every number", "why_tests_cant": "boundary values exist for every format; rounding can carry into a new integer digit", "anchors": ["src/pygerber/gerber/ast/state_tracking_visitor.py::CoordinateFormat._pack_skip_leading", "src/pygerber/gerber/ast/state_tracking_visitor.py::CoordinateFormat._pack_skip_trailing"]}
{"id": "C05", "title": "Each draw command is interpreted under the modes in force", "statement": "After any history of commands, a D01 is drawn as a line, clockwise arc or counter-clockwise arc according to the latest of G01/G02/G03 (initially linear), with the quadrant mode of the latest of G74/G75 (initially single-quadrant), and goes to the region contour exactly when the latest of G36/G37 is G36.", "quantifier": "every finite sequence of commands", "why_tests_cant": "the handler is cached in a mutable slot refreshed by seven different commands; a stale slot only shows in specific orders of mode changes", "anchors": ["src/pygerber/gerber/ast/state_tracking_visitor.py::StateTrackingVisitor.on_d01", "src/pygerber/gerber/ast/state_tracking_visitor.py::StateTrackingVisitor.on_g01", "src/pygerber/gerber/ast/state_tracking_visitor.py::StateTrackingVisitor.on_g36", "src/pygerber/gerber/ast/state_tracking_visitor.py::StateTrackingVisitor.on_g74"]}
{"id": "C06", "title": "Coordinates are modal and the current point is the last point visited", "statement": "After any history of draw, move and flash commands, each of the two coordinates of the current point equals the last value explicitly given for that coordinate in an executed D01/D02/D03 (0 if none); a draw starts at the current point of the preceding history and ends at the new one; no other command moves the current point.", "quantifier": "every finite sequence of commands", "why_tests_cant": "histories are unbounded; omission of one coordinate depends on arbitrarily old commands", "anchors": ["src/pygerber/gerber/ast/state_tracking_visitor.py::StateTrackingVisitor._update_coordinates", "src/pygerber/gerber/ast/state_tracking_visitor.py::StateTrackingVisitor.coordinate_x"]}
{"id": "C07", "title": "Attribute dictionaries follow TF/TA/TO/TD", "statement": "After any history of attribute commands, the value of a file, aperture or object attribute is the latest one set by TF/TA/TO with that name and not deleted since by a TD naming it or by a bare TD (file attributes are never deleted); each aperture carries exactly the aperture attributes in force when it was defined, unaffected by later attribute commands.", "quantifier": "every finite sequence of attribute and aperture definition commands", "why_tests_cant": "needs every interleaving of set/delete/define over unboundedly many names; aliasing of the dictionaries would only show in some of them", "anchors": ["src/pygerber/gerber/ast/state_tracking_visitor.py::StateTrackingVisitor.on_ta", "src/pygerber/gerber/ast/state_tracking_visitor.py::StateTrackingVisitor.on_td", "src/pygerber/gerber/ast/state_tracking_visitor.py::StateTrackingVisitor.on_ad"]}
{"id": "C08", "title": "Next free aperture code is free", "statement": "For every non-empty set of defined apertures and blocks, the code returned as next free is not used by any of them and is larger than all of them.", "quantifier": "every dictionary of apertures and blocks", "why_tests_cant": "unbounded dictionaries", "anchors": ["src/pygerber/gerber/ast/state_tracking_visitor.py::ApertureStorage.get_next_free_aperture_code"]}
{"id": "C09", "title": "M00/M02 end the program unless ignored", "statement": "With default options no command after the first M00/M02 has any effect; with ignore_program_stop=True the file is processed as if M00/M02 were absent.", "quantifier": "every file and position of the stop command", "why_tests_cant": "the claim is about all continuations after the stop", "anchors": ["src/pygerber/gerber/ast/state_tracking_visitor.py::StateTrackingVisitor.on_exception", "src/pygerber/gerber/ast/state_tracking_visitor.py::StateTrackingVisitor.on_file", "src/pygerber/gerber/ast/ast_visitor.py::AstVisitor.on_file"]}
{"id": "C10", "title": "Drawing uses the selected aperture or fails", "statement": "After any history, a flash uses the definition most recently stored under the most recently selected aperture code; if no aperture was ever selected it fails with 'aperture not selected', and selecting or using a code that was never defined fails with 'aperture not found'.", "quantifier": "every finite sequence of commands", "why_tests_cant": "histories of definition, redefinition and selection are unbounded", "anchors": ["src/pygerber/gerber/ast/state_tracking_visitor.py::State.current_aperture", "src/pygerber/gerber/ast/state_tracking_visitor.py::StateTrackingVisitor.on_dnn", "src/pygerber/gerber/ast/state_tracking_visitor.py::StateTrackingVisitor.on_d03"]}
{"id": "C11", "title": "Macro expressions have conventional arithmetic meaning", "statement": "For every macro expression text accepted by the parser, the evaluated value equals the conventional value: parentheses first, then unary minus/plus, then multiplication and division left to right, then addition and subtraction left to right.", "quantifier": "every expression, every assignment of macro variables (with no division by zero)", "why_tests_cant": "the grammar gives each operator its own level and n-ary nodes, so agreement with convention must be shown for all nestings", "anchors": ["src/pygerber/gerber/parser/pyparsing/grammar.py::Grammar.expression", "src/pygerber/gerber/ast/expression_eval_visitor.py::ExpressionEvalVisitor"]}
{"id": "C12", "title": "Formatting a macro expression and parsing it back gives the same expression", "statement": "For every expression tree that the parser can produce, printing it with the default options and parsing the result yields the same tree.", "quantifier": "every expression tree in the image of the parser", "why_tests_cant": "trees are unboundedly deep; a missing parenthesis shows only for particular operator nestings", "anchors": ["src/pygerber/gerber/formatter/formatter.py::Formatter.on_add", "src/pygerber/gerber/formatter/formatter.py::Formatter.on_neg", "src/pygerber/gerber/parser/pyparsing/grammar.py::Grammar.expression"]}
{"id": "C13", "title": "Explicit parentheses never change the value", "statement": "For every expression tree that the parser can produce, printing it in explicit-parenthesis mode and parsing it back succeeds and the value is unchanged under every assignment of the variables.", "quantifier": "every expression tree in the image of the parser, every variable assignment", "why_tests_cant": "unboundedly many trees", "anchors": ["src/pygerber/gerber/formatter/formatter.py::Formatter.on_parenthesis", "src/pygerber/gerber/formatter/formatter.py::Formatter.on_add"]}
{"id": "C14", "title": "Compiled programs are well formed for the renderer", "statement": "Every successfully compiled program is a sequence of complete layers (start, drawing commands, end), the main layer comes last and exactly once, and every layer pasted by a layer is completed earlier in the program.", "quantifier": "every source file that compiles", "why_tests_cant": "dependency graphs between aperture, block, step-repeat and thermal layers are unbounded", "anchors": ["src/pygerber/gerber/compiler/compiler.py::Compiler.compile", "src/pygerber/gerber/compiler/compiler.py::Compiler._resolve_buffer_submit_order", "src/pygerber/gerber/compiler/compiler.py::Compiler._convert_buffers_to_rvmc"]}
{"id": "C15", "title": "No compiled program defines a layer twice", "statement": "Every successfully compiled program starts each layer at most once, so rendering never stops with 'layer already exists'.", "quantifier": "every source file that compiles", "why_tests_cant": "depends on the shape of the dependency graph", "anchors": ["src/pygerber/gerber/compiler/compiler.py::Compiler._resolve_buffer_submit_order", "src/pygerber/vm/vm.py::VirtualMachine.on_start_layer"]}
{"id": "C16", "title": "Acyclic layer dependencies always compile", "statement": "If no layer depends on itself through pastes, resolving the layer order terminates without reporting a cyclic dependency; if there is a cycle, it is reported.", "quantifier": "every finite dependency graph", "why_tests_cant": "graphs are unbounded; non-termination cannot be observed by a test", "anchors": ["src/pygerber/gerber/compiler/compiler.py::Compiler._resolve_buffer_submit_order"]}
{"id": "C17", "title": "A flash is the aperture image under mirror, rotation and scale, moved to the flash point", "statement": "The layer pasted for a flash contains the aperture's drawing commands transformed by scaling first, then rotation, then mirroring as in force at the flash, and is pasted at the flash point.", "quantifier": "every history of load commands and flashes", "why_tests_cant": "transforms are cached under textual keys; staleness needs particular histories", "anchors": ["src/pygerber/gerber/compiler/compiler.py::Compiler._on_flash_aperture", "src/pygerber/gerber/compiler/compiler.py::Compiler._get_aperture_buffer", "src/pygerber/gerber/compiler/compiler.py::Compiler._get_buffer_with_transform"]}
{"id": "C18", "title": "Step and repeat draws the body nx*ny times at offsets k*dx, l*dy", "statement": "A step-and-repeat block with repeats nx, ny and steps dx, dy draws its body exactly once for every 0<=k<nx, 0<=l<ny displaced by (k*dx, l*dy) and by nothing else.", "quantifier": "every repeat count, step and body", "why_tests_cant": "unbounded counts and bodies; displacement depends on the current point left by the body", "anchors": ["src/pygerber/gerber/compiler/compiler.py::Compiler.on_sr"]}
{"id": "C19", "title": "Redefining an aperture takes effect", "statement": "After an aperture code is redefined, flashes use the new definition, whatever was flashed before.", "quantifier": "every history of definitions and flashes", "why_tests_cant": "caching of transformed apertures makes this depend on the history", "anchors": ["src/pygerber/gerber/compiler/compiler.py::Compiler._get_buffer_with_transform", "src/pygerber/gerber/compiler/compiler.py::Compiler.on_adc"]}
{"id": "C20", "title": "Regions are the contours that were drawn", "statement": "For every sequence of draw and move commands between G36 and G37, the shapes produced are exactly the non-empty maximal runs of draws between moves, in order, each segment starting where the previous one ended, and nothing of an earlier region leaks into a later one.", "quantifier": "every sequence of commands inside and around regions", "why_tests_cant": "unbounded sequences; flushing depends on order of D02/G37", "anchors": ["src/pygerber/gerber/compiler/compiler.py::Compiler.on_flush_region", "src/pygerber/gerber/compiler/compiler.py::Compiler.on_start_region", "src/pygerber/gerber/compiler/compiler.py::Compiler.on_in_region_draw_line"]}
{"id": "C21", "title": "Polarity of every drawn object is the one in force", "statement": "Every line, arc, flash and region shape is emitted with the polarity set by the latest LP command before it (dark initially).", "quantifier": "every history of commands", "why_tests_cant": "histories unbounded; nested blocks and step-repeats share the state", "anchors": ["src/pygerber/gerber/compiler/compiler.py::Compiler.on_draw_line", "src/pygerber/gerber/compiler/compiler.py::Compiler._on_flash_aperture", "src/pygerber/gerber/compiler/compiler.py::Compiler.on_flush_region"]}
{"id": "C22", "title": "Arcs are drawn around the right centre and full circles are closed", "statement": "In multi-quadrant mode an arc from s to e with offset (i,j) is drawn around s+(i,j) from s to e in the direction of the mode; when s=e the full circle is drawn as two arcs that together run from s back to s through the diametrically opposite point, with a line cap of the aperture size at both ends.", "quantifier": "all real start points, end points and offsets", "why_tests_cant": "continuous domain", "anchors": ["src/pygerber/gerber/compiler/compiler.py::Compiler._on_draw_arc_mq"]}
{"id": "C23", "title": "Programs written with the RVMC builder always render", "statement": "For every use of the layer builder in which each layer is left normally and only finished layers are pasted, the commands collected are balanced, each nested layer is complete before it is pasted, and executing them never fails with 'layer not found', 'layer already exists' or 'no layer set'.", "quantifier": "every nesting of layer blocks and pastes", "why_tests_cant": "unbounded nesting", "anchors": ["src/pygerber/builder/rvmc.py::RvmcBuilder", "src/pygerber/builder/rvmc.py::LayerBuilder", "src/pygerber/vm/vm.py::VirtualMachine.run"]}
{"id": "C24", "title": "Automatically sized layers enclose everything drawn on them", "statement": "When an automatically sized layer ends, its box contains the bounding box of every shape drawn and of every layer pasted on it, and is the smallest such box.", "quantifier": "every command list", "why_tests_cant": "unbounded lists", "anchors": ["src/pygerber/vm/vm.py::VirtualMachine._calculate_deferred_layer_box", "src/pygerber/vm/vm.py::VirtualMachine.on_end_layer"]}
{"id": "C25", "title": "Empty automatically sized layers are harmless", "statement": "With fail_on_empty_auto_sized_layer=False a layer on which nothing is drawn does not change how the remaining commands are executed.", "quantifier": "every program with empty layers", "why_tests_cant": "needs every position of the empty layer", "anchors": ["src/pygerber/vm/vm.py::VirtualMachine.on_end_layer", "src/pygerber/vm/vm.py::VirtualMachine.set_handlers_for_layer"]}
{"id": "C26", "title": "Commands are executed on the innermost open layer and in the mode of that layer", "statement": "At every point of a program whose automatically sized layers are not empty, drawing commands are executed immediately if the innermost open layer has a fixed box and are recorded otherwise; recorded commands are executed in their original order when the layer ends.", "quantifier": "every balanced program", "why_tests_cant": "handlers are cached in mutable slots", "anchors": ["src/pygerber/vm/vm.py::VirtualMachine.on_start_layer", "src/pygerber/vm/vm.py::VirtualMachine.on_end_layer"]}
{"id": "C27", "title": "Box union is the least box containing both", "statement": "The sum of two boxes contains both, is contained in every box containing both, and is commutative, associative and idempotent; translating commutes with it.", "quantifier": "all boxes over the numbers", "why_tests_cant": "continuous domain", "anchors": ["src/pygerber/vm/types/box.py::Box.__add__"]}
{"id": "C28", "title": "The bounding box of a shape contains the shape", "statement": "For every shape made of straight segments and arcs, every point of every segment lies in the shape's bounding box, and the bounding box is tight.", "quantifier": "all shapes, all points of the segments", "why_tests_cant": "continuous domain; arcs crossing axes", "anchors": ["src/pygerber/vm/commands/shape.py::Shape.outer_box", "src/pygerber/vm/commands/shape_segments/arc.py::Arc.outer_box", "src/pygerber/vm/commands/shape_segments/line.py"]}
{"id": "C29", "title": "Matrices compose like the transformations they name", "statement": "Transforming by the product of two matrices is transforming by the second and then the first; rotation by a then by b is rotation by a+b; rotation and reflection preserve distances, scaling multiplies them; translation moves by the vector.", "quantifier": "all matrices and vectors", "why_tests_cant": "continuous domain", "anchors": ["src/pygerber/vm/types/matrix.py::Matrix3x3", "src/pygerber/vm/types/vector.py::Vector.transform"]}
{"id": "C30", "title": "Arcs keep describing the same curve when transformed", "statement": "An arc transformed by a scale/rotation/mirror matrix has the transformed start, end and centre and runs clockwise exactly when the image of the curve does (orientation flips exactly when the matrix reverses orientation).", "quantifier": "all matrices built from mirror, rotation and scale", "why_tests_cant": "continuous domain", "anchors": ["src/pygerber/vm/commands/shape_segments/arc.py::Arc.transform"]}
{"id": "C31", "title": "Angles between vectors are consistent", "statement": "The clockwise and counter-clockwise angles between two vectors add up to 360 degrees, the clockwise one is in [0,360) as documented.", "quantifier": "all vectors", "why_tests_cant": "continuous domain", "anchors": ["src/pygerber/vm/types/vector.py::Vector.angle_between", "src/pygerber/vm/types/vector.py::Vector.angle_between_cc"]}
{"id": "C32", "title": "Standard aperture shapes have the requested extents", "statement": "The outlines generated for rectangle, circle, obround, line and regular polygon apertures are closed chains of segments and have exactly the width and height requested, centred at the requested point; thick lines and arcs lie half a thickness to either side of the line or arc.", "quantifier": "all sizes and positions", "why_tests_cant": "continuous domain", "anchors": ["src/pygerber/vm/commands/shape.py::Shape.new_rectangle", "src/pygerber/vm/commands/shape.py::Shape.new_obround", "src/pygerber/vm/commands/shape.py::Shape.new_circle", "src/pygerber/vm/commands/shape.py::Shape.new_line", "src/pygerber/vm/commands/shape.py::Shape.new_polygon"]}
{"id": "C33", "title": "Pads placed with the builder are what the generated file says", "statement": "For every sequence of successful builder calls, reading the generated commands in order flashes exactly the requested pads: the k-th flash uses the aperture of the k-th pad at the requested (packed) location with the requested rotation, mirroring, scale and polarity.", "quantifier": "every sequence of builder calls", "why_tests_cant": "the builder omits commands it believes redundant, so correctness depends on the whole history", "anchors": ["src/pygerber/builder/gerber.py::GerberX3Builder.add_pad", "src/pygerber/builder/gerber.py::GerberX3Builder.add_cutout_pad", "src/pygerber/builder/gerber.py::GerberX3Builder._create_state_updates"]}
{"id": "C34", "title": "Traces drawn with the builder are what the generated file says", "statement": "For every sequence of successful builder calls, the draw operation generated for each line/arc trace starts at the requested begin point, ends at the requested end point, uses a circular aperture of the requested width, the requested arc centre, and is interpolated in the requested mode.", "quantifier": "every sequence of builder calls", "why_tests_cant": "move and mode commands are omitted when believed redundant", "anchors": ["src/pygerber/builder/gerber.py::GerberX3Builder.add_line_trace", "src/pygerber/builder/gerber.py::GerberX3Builder.add_clockwise_arc_trace", "src/pygerber/builder/gerber.py::GerberX3Builder.add_counter_clockwise_arc_trace"]}
{"id": "C35", "title": "Builder regions do not disturb later objects", "statement": "Adding a region between two builder calls does not change how the objects added later are interpreted.", "quantifier": "every sequence of builder calls", "why_tests_cant": "needs all orders of region and trace calls", "anchors": ["src/pygerber/builder/gerber.py::RegionCreator.create"]}
{"id": "C36", "title": "A rejected builder call leaves the builder usable", "statement": "If a builder call raises because a coordinate does not fit, later successful calls still generate what they claim to.", "quantifier": "every history with failing calls", "why_tests_cant": "crash points inside a call", "anchors": ["src/pygerber/builder/gerber.py::GerberX3Builder.add_pad", "src/pygerber/builder/gerber.py::GerberX3Builder._create_state_updates"]}
{"id": "C37", "title": "Builder aperture codes are valid and unique", "statement": "For every sequence of pad creations and traces, the aperture definitions in the generated file have pairwise distinct codes, all at least 10, and every code selected is defined earlier in the file.", "quantifier": "every sequence of builder calls", "why_tests_cant": "unbounded histories", "anchors": ["src/pygerber/builder/gerber.py::PadCreator", "src/pygerber/builder/gerber.py::GerberX3Builder.get_code", "src/pygerber/builder/gerber.py::GerberX3Builder._get_trace_aperture"]}
{"id": "C38", "title": "Pad attributes belong to their pad only", "statement": "Reading a generated file, each pad's aperture carries exactly the attributes set on that pad (last value per name), and no attribute leaks to another pad.", "quantifier": "every set of pads and attributes", "why_tests_cant": "unbounded", "anchors": ["src/pygerber/builder/gerber.py::Pad._get_nodes", "src/pygerber/builder/gerber.py::GerberX3Builder.get_code"]}
{"id": "C39", "title": "Printed floats denote the rounded value", "statement": "For every number and every requested number of decimal places, with or without trimming, the printed number reads back as the number rounded to that many places.", "quantifier": "every number, every number of places", "why_tests_cant": "unbounded", "anchors": ["src/pygerber/gerber/formatter/formatter.py::Formatter._fmt_double"]}
{"id": "C40", "title": "Formatting then parsing gives back the same commands", "statement": "For every list of modelled commands the parser can produce, formatting it with default options and parsing the output yields the same list.", "quantifier": "every list of commands", "why_tests_cant": "unbounded; each command has optional parts whose omission must stay unambiguous", "anchors": ["src/pygerber/gerber/formatter/formatter.py::Formatter", "src/pygerber/gerber/parser/pyparsing/grammar.py::Grammar.build"]}
{"id": "C41", "title": "Formatting is idempotent", "statement": "Formatting a formatted file changes nothing.", "quantifier": "every list of commands", "why_tests_cant": "unbounded", "anchors": ["src/pygerber/gerber/formatter/formatter.py::Formatter"]}
{"id": "C42", "title": "Step-repeat headers are printed completely", "statement": "For every combination of present and absent X, Y, I, J parameters, the printed step-repeat header contains exactly the present ones.", "quantifier": "all parameter values and all combinations of presence", "why_tests_cant": "values unbounded", "anchors": ["src/pygerber/gerber/formatter/formatter.py::Formatter.on_sr_open"]}
{"id": "C43", "title": "Colours survive conversion to and from hex", "statement": "For every colour, writing it as hex and reading it back gives the same colour; reading any accepted hex text and writing it gives the canonical 8-digit upper or lower case form.", "quantifier": "all 2^32 colours and all texts", "why_tests_cant": "too many values; texts unbounded", "anchors": ["src/pygerber/vm/types/color.py::Color.from_hex", "src/pygerber/vm/types/color.py::Color.to_hex"]}
{"id": "C44", "title": "Source lookup finds the node under the cursor", "statement": "For every list of nodes in source order and every position at or after the first node's start, the node found is the last one starting at or before the position; for earlier positions nothing is found.", "quantifier": "every list of nodes, every position", "why_tests_cant": "unbounded lists", "anchors": ["src/pygerber/gerber/ast/node_finder.py::NodeFinder.find_node"]}
{"id": "C45", "title": "Interpolation commands reported as redundant can be deleted", "statement": "Deleting every interpolation-mode command reported as redundant by the linter leaves the interpolation mode in force at every other command unchanged, for every file; and the first such command in a file is never reported.", "quantifier": "every file", "why_tests_cant": "unbounded", "anchors": ["src/pygerber/gerber/linter/rules/GRB001.py::GRB001"]}
{"id": "C46", "title": "Text positions are totally ordered", "statement": "The comparison operators on text positions agree with the lexicographic order on (line, column).", "quantifier": "all pairs of positions", "why_tests_cant": "unbounded", "anchors": ["src/pygerber/common/position.py::Position"]}
{"id": "C47", "title": "Hover previews draw with the state at the cursor", "statement": "The program rendered for a hover preview executes the hovered draw command in the same interpolation mode, quadrant mode, transform and from the same (representable) current point as in the file.", "quantifier": "every file and cursor position", "why_tests_cant": "all reachable states", "anchors": ["src/pygerber/gerber/language_server/_server/hover/gerber.py::GerberHoverCreator._visualize_draw_op"]}
{"id": "C48", "title": "The language server never answers from outdated text", "statement": "After any history of open/change/close notifications, hover and completion answers for a document are computed from the text of its latest open or change notification (or nothing), even when parsing failed in between.", "quantifier": "every history of notifications", "why_tests_cant": "unbounded histories, failures at any point", "anchors": ["src/pygerber/gerber/language_server/_server/documents/gerber.py::GerberDocument", "src/pygerber/gerber/language_server/_server/server.py"]}
{"id": "C49", "title": "Language server handlers do not deadlock", "statement": "Whatever the order in which requests arrive on the event loop, every handler runs to completion and leaves both locks of the cache and of the document free.", "quantifier": "every schedule of handlers, with exceptions at any point", "why_tests_cant": "schedules unbounded", "anchors": ["src/pygerber/gerber/language_server/_server/document_cache.py::DocumentCache", "src/pygerber/gerber/language_server/_server/documents/document.py::Document", "src/pygerber/gerber/language_server/_server/server.py"]}
{"id": "C50", "title": "Every file type has a style", "statement": "For every file type that can be inferred or passed, both default colour maps provide a style, so rendering never fails with a missing key.", "quantifier": "all file types", "why_tests_cant": "finite; included because the table is edited by hand", "anchors": ["src/pygerber/gerber/api/_enums.py::DEFAULT_ALPHA_COLOR_MAP", "src/pygerber/gerber/api/_gerber_file.py::GerberFile._dispatch_style"]}
{"id": "C51", "title": "Project views contain the right files in the right order", "statement": "For every job file, the board profile appears topmost in every view, inner views are ordered by layer number, and files of the same view are ordered copper, mask, paste, silk, profile.", "quantifier": "every job file", "why_tests_cant": "unbounded lists", "anchors": ["src/pygerber/gerber/api/_gerber_job_file.py::GerberJobFile.to_project"]}
{"id": "C52", "title": "Caching in GerberFile is transparent", "statement": "For every history of option changes and renderings, each result is what a fresh object with the current options would produce.", "quantifier": "every history of API calls", "why_tests_cant": "unbounded", "anchors": ["src/pygerber/gerber/api/_gerber_file.py::GerberFile"]}
{"id": "C53", "title": "Composite views contain all of every layer", "statement": "For every set of rendered files and every resolution, each sub-image is pasted at a non-negative offset, as far from the left and upper edges as its box lies from the leftmost and topmost ones, and fits completely in the composite image.", "quantifier": "all boxes and resolutions", "why_tests_cant": "continuous domain; truncation towards zero", "anchors": ["src/pygerber/gerber/api/_composite_view.py::CompositeView.render_with_pillow"]}
{"id": "C54", "title": "Arc discretisation terminates and stays on the arc", "statement": "For every arc, point generation terminates, every generated point lies on the circle and between start and end in the drawing direction, starting at the start angle and ending at the end angle.", "quantifier": "all arcs and segment counts", "why_tests_cant": "continuous domain; non-termination", "anchors": ["src/pygerber/vm/shapely/vm.py::ShapelyVirtualMachine._calculate_arc_points", "src/pygerber/vm/pillow/vm.py::PillowVirtualMachine._calculate_arc_points"]}
{"id": "C55", "title": "Painting order semantics", "statement": "For every list of dark and clear objects on a layer, a point is covered in the result exactly when the last object containing it is dark; pasting a layer is painting the union of its content.", "quantifier": "all lists of objects, all points", "why_tests_cant": "unbounded", "anchors": ["src/pygerber/vm/shapely/vm.py::ShapelyVirtualMachine._add_polygon", "src/pygerber/vm/shapely/vm.py::ShapelyVirtualMachine.on_paste_layer_eager", "src/pygerber/vm/pillow/vm.py::PillowVirtualMachine.on_paste_layer_eager"]}
{"id": "C56", "title": "Arc centre offsets come from the command itself", "statement": "For every history, a draw command uses as centre offsets the I and J written in that command, read in the format in force, and 0 for an omitted one.", "quantifier": "every finite sequence of commands", "why_tests_cant": "depends on the whole history before the command", "anchors": ["src/pygerber/gerber/ast/state_tracking_visitor.py::StateTrackingVisitor.on_coordinate_i", "src/pygerber/gerber/ast/state_tracking_visitor.py::StateTrackingVisitor.coordinate_i"]}
{"id": "C57", "title": "HSV colours are converted by the standard formula", "statement": "For every hue, every saturation and value between 0 and 100 and every alpha from 0 to 255, creating a colour from HSV succeeds, and each of its red, green and blue channels is the value of the standard HSV formula rounded to the nearest of the 256 levels.", "quantifier": "all hues, saturations, values and alphas", "why_tests_cant": "continuous domain; sector boundaries of the hue", "anchors": ["src/pygerber/vm/types/color.py::Color.from_hsv"]}
{"id": "C58", "title": "Switching off the trimming of zeros keeps them", "statement": "With trimming of trailing zeros switched off and a positive number of decimal places, every number is printed with exactly that many decimals.", "quantifier": "all numbers and numbers of places", "why_tests_cant": "continuous domain", "anchors": ["src/pygerber/gerber/formatter/formatter.py::Formatter._fmt_double", "src/pygerber/gerber/formatter/options.py::Options"]}
{"id": "C59", "title": "Layout options do not change the commands", "statement": "For every parsed file and every choice of the formatting options (indentation, line ends, splitting of macros, separation of G codes from D codes, removal of G54 and G55), the formatted file parses to the same commands, except for the removed ones and for the separation.", "quantifier": "every text the parser accepts, all combinations of options", "why_tests_cant": "unbounded files; 2^n option combinations", "anchors": ["src/pygerber/gerber/formatter/formatter.py::Formatter", "src/pygerber/gerber/formatter/options.py::Options", "src/pygerber/gerber/parser/pyparsing/grammar.py::Grammar.build"]}
{"id": "C60", "title": "Hover text describes the command at the cursor", "statement": "For every file and draw command, the hover text is made from the state after exactly the commands before it; the start, end and centre it shows, and the modes, aperture, transform and attributes it shows, are those with which the command is drawn.", "quantifier": "every file and draw command in it", "why_tests_cant": "depends on the whole history before the command", "anchors": ["src/pygerber/gerber/language_server/_server/hover/gerber.py::LimitedStateTrackingVisitor", "src/pygerber/gerber/language_server/_server/hover/gerber.py::GerberHoverCreator.on_d01"]}
{"id": "C61", "title": "Draws paint the trace of the aperture", "statement": "For every history, a draw outside of regions paints, in the polarity in force, exactly the points that the current aperture, scaled as requested, touches while it moves from the current point to the end point: straight, or along the arc about the given centre in the given sense, which is the whole circle if the two points are the same.", "quantifier": "every finite sequence of commands followed by a draw, every point of the plane", "why_tests_cant": "continuous domain; depends on the whole history before the command", "anchors": ["src/pygerber/gerber/compiler/compiler.py::Compiler.on_draw_line", "src/pygerber/vm/commands/shape.py::Shape.new_line", "src/pygerber/vm/commands/shape.py::Shape.new_cw_arc"]}
{"id": "C62", "title": "Formatting does not change the drawing", "statement": "For every Gerber text that the parser accepts and every formatting option, the formatted text is accepted and compiles to the same program, or fails to compile with the same exception, as the original text.", "quantifier": "every source text, every combination of formatter options, every compiler setting", "why_tests_cant": "unbounded set of sources and layouts; crosses the parser, the formatter, the state visitor and the compiler", "anchors": ["src/pygerber/gerber/formatter/formatter.py::Formatter", "src/pygerber/gerber/ast/state_tracking_visitor.py::StateTrackingVisitor", "src/pygerber/gerber/compiler/compiler.py::Compiler"]}
{"id": "C63", "title": "Attributes can be deleted by the name they are written with", "statement": "In every state, after an aperture or object attribute was set, deleting the attribute by the name it is written with removes it and attaches nothing that was not attached before.", "quantifier": "every state of the visitor, every attribute command", "why_tests_cant": "depends on the whole history before the command", "anchors": ["src/pygerber/gerber/ast/nodes/attribute/TO.py::TO.attribute_name", "src/pygerber/gerber/ast/nodes/attribute/TA.py::TA.attribute_name", "src/pygerber/gerber/ast/state_tracking_visitor.py::StateTrackingVisitor.on_td"]}
{"id": "C64", "title": "The rendered image is what the layers drawn by the file describe", "statement": "For every Gerber file that compiles and is rendered with the Shapely backend, a point is covered in the result exactly if the last object on the main layer that contains it is dark; objects are the polygons of the shapes drawn by the commands of the file and the images of the layers it pastes, recursively.", "quantifier": "every file, every compiler setting, every nesting of apertures and blocks, every point of the plane", "why_tests_cant": "unbounded files and layer graphs, continuous domain; crosses the visitor, the compiler, the virtual machine and the backend", "anchors": ["src/pygerber/gerber/compiler/compiler.py::Compiler.compile", "src/pygerber/vm/vm.py::VirtualMachine.run", "src/pygerber/vm/shapely/vm.py::ShapelyVirtualMachine"]}
{"id": "C65", "title": "Apertures have the figures that the format prescribes", "statement": "For every aperture definition, with any parameters, variables and expressions, the aperture consists, in order, of the figures and polarities that the Gerber format prescribes for the standard apertures and for every primitive of a macro; a flash paints these figures, placed by the load commands in force, at the flash point.", "quantifier": "every file, every aperture definition and macro body, every value of the parameters, every point of the plane", "why_tests_cant": "continuous domain; unbounded macro bodies and expressions", "anchors": ["src/pygerber/gerber/compiler/compiler.py::Compiler.on_adc", "src/pygerber/gerber/compiler/compiler.py::Compiler.on_ado", "src/pygerber/gerber/compiler/compiler.py::MacroEvalVisitor", "src/pygerber/vm/commands/shape.py::Shape"]}
{"id": "C66", "title": "The text of a built board describes the board", "statement": "For every sequence of calls of the Gerber builder, the text that is dumped is accepted by the parser, and compiling it gives the same program as compiling the commands of the builder directly; every pad has in the text the attributes that were set on it.", "quantifier": "every finite sequence of builder calls, failed ones included", "why_tests_cant": "unbounded sequences of calls; crosses the builder, the formatter, the parser, the visitor and the compiler", "anchors": ["src/pygerber/builder/gerber.py::GerberX3Builder.get_code", "src/pygerber/builder/gerber.py::GerberCode.dumps", "src/pygerber/gerber/formatter/formatter.py::Formatter", "src/pygerber/gerber/parser/pyparsing/grammar.py::Grammar.build"]}
{"id": "C67", "title": "Files with errors are read around the errors", "statement": "For every text that is not blank, the resilient parser returns a file; correct texts are read as by the strict parser; where no command can be read, exactly the rest of that line becomes an error, and all readable commands before and after it are kept.", "quantifier": "every source text", "why_tests_cant": "unbounded set of texts", "anchors": ["src/pygerber/gerber/parser/pyparsing/grammar.py::Grammar.build_resilient", "src/pygerber/gerber/parser/pyparsing/parser.py::Parser.parse", "src/pygerber/gerber/language_server/_server/documents/gerber.py::GerberDocument.load_ast_from_code"]}
{"id": "C68", "title": "Nodes know where they are in the source", "statement": "For every text that can be read, the location of every node is where its command begins in the text; the nodes lie one after the other in the text with only blanks between them, the nodes of a block or macro lie inside it; reading the text from the location of a node gives this node and the following ones; the range from location to location plus length contains the command; looking up a line and column finds nodes by these positions.", "quantifier": "every source text, every node of it at every depth, every line and column", "why_tests_cant": "unbounded set of texts; every nesting", "anchors": ["src/pygerber/gerber/parser/pyparsing/grammar.py::Grammar.make_unpack_callback", "src/pygerber/gerber/ast/nodes/base.py::SourceInfo", "src/pygerber/gerber/ast/node_finder.py::NodeFinder"]}
{"id": "C69", "title": "The MD5 attribute certifies the text before it", "statement": "For every file with an MD5 attribute, checking the attribute succeeds exactly if its value is the digest of all characters before the command, line breaks excluded; the kind of line breaks and the text after the command do not matter.", "quantifier": "every source text, every position of the command, every digest function", "why_tests_cant": "unbounded set of texts", "anchors": ["src/pygerber/gerber/ast/nodes/attribute/TF.py::TF_MD5.check_source_hash", "src/pygerber/gerber/ast/nodes/base.py::SourceInfo", "src/pygerber/gerber/parser/pyparsing/grammar.py::Grammar.make_unpack_callback"]}
{"id": "C70", "title": "The linter reports exactly what its rules are about, where it is", "statement": "For every text that parses and every selection of rules, linting reports exactly one violation per selected rule and offending command (deprecated G54 and G55 at any depth, repeated G01/G02/G03), in the order of the text; each report has the offsets, line and column of the command in the text; rules do not influence each other; no selection means all rules and an unknown rule is refused; text formatted with removal of G54 and G55 has no report about them.", "quantifier": "every text, every list of rules, every nesting", "why_tests_cant": "unbounded set of texts and rule lists", "anchors": ["src/pygerber/gerber/linter/__init__.py::lint", "src/pygerber/gerber/linter/linter.py::Linter.lint", "src/pygerber/gerber/linter/event_ast_visitor.py::EventAstVisitor", "src/pygerber/gerber/linter/rules/rule.py::Rule.report_violation", "src/pygerber/console/gerber.py::lint"]}
{"id": "C71", "title": "Formatting files does not lose data", "statement": "At every moment of a run of the format command, whatever the run is interrupted by, no file but the output has changed, and the output holds its old content or a beginning of the new one; a failed run can be repeated with the same effect; a run that succeeds leaves a file that draws the same as the source; a run that fails leaves the files as they were.", "quantifier": "every disk, every source and output path (also of the same file), every moment at which the process is killed", "why_tests_cant": "crash points and unbounded sources", "anchors": ["src/pygerber/console/gerber.py::format_cmd", "src/pygerber/gerber/api/_gerber_file.py::GerberFile.from_file", "src/pygerber/gerber/api/_gerber_file.py::GerberFile.format", "src/pygerber/gerber/formatter/formatter.py::format"]}
{"id": "C72", "title": "The box of a shape is the box of that shape", "statement": "In every history of creating shapes, transforming shapes and asking shapes for their bounding boxes, every answer is the bounding box of the shape that was asked.", "quantifier": "every sequence of calls, on any number of shapes and copies of them", "why_tests_cant": "histories: the answer depends on which boxes were asked for before", "anchors": ["src/pygerber/vm/commands/shape.py::Shape.outer_box", "src/pygerber/vm/commands/shape.py::Shape.transform"]}
{"id": "C73", "title": "Completion offers what fits the line", "statement": "With the cursor in a line that cannot be read, completion offers G codes after `G`, exactly the aperture codes that the document defines after `D`, and extended commands after `%` whose aperture definitions use a fresh code; elsewhere it offers nothing. What is offered, once filled in, is read as the command it names, and the offer is for the text of the document at the time of the request.", "quantifier": "every text, every position of the cursor, every order of requests and notifications", "why_tests_cant": "texts and positions: mistakes may stand anywhere in the document, and the codes come from executing the rest of it", "anchors": ["src/pygerber/gerber/language_server/_server/documents/gerber.py::GerberDocument.on_completion", "src/pygerber/gerber/language_server/_server/documents/gerber.py::GerberDocument.get_completion_apertures", "src/pygerber/gerber/language_server/_server/documents/gerber.py::GerberDocument.get_completion_extended_command"]}
{"id": "C74", "title": "The picture is the one the commands describe", "statement": "The image rendered from a file covers exactly the points that its commands describe when they are read one after the other: an aperture code stands for the figures of its definition, a block for the objects drawn in it; a flash puts one object (or the objects of a block), scaled, rotated, mirrored and moved, a draw the points a round aperture touches on its way, a region the points its contours enclose, a repetition the copies of what was drawn in it; later objects cover or erase earlier ones by their polarity.", "quantifier": "every file that compiles and is rendered, every order of its commands, every nesting of blocks", "why_tests_cant": "the picture depends on the whole history of commands, and every point of the plane has to be compared", "anchors": ["src/pygerber/gerber/compiler/compiler.py::Compiler", "src/pygerber/gerber/ast/state_tracking_visitor.py::StateTrackingVisitor", "src/pygerber/vm/vm.py::VirtualMachine", "src/pygerber/vm/rvmc.py::RVMC"]}
{"id": "C75", "title": "Conversions from the command line do what their options ask for", "statement": "A conversion (`gerber convert png|jpeg|tiff|bmp|webp|svg`) saves the image that the API renders for the source with the file type named by `-t`, in the preset named by `-s` or the two colours given by `-f` and `-b` (otherwise in the colours of the file type), at the resolution of `-d`, to the file of `-o`, encoded as asked. It is refused, with a message that names the option at fault, exactly when an option cannot be followed. `merge-convert` stacks the sources in the order given, the last on top.", "quantifier": "every combination of words given to the options, every source, every number of sources to merge", "why_tests_cant": "the words of the options and their combinations are unbounded, and colours asked for must arrive whatever the file declares", "anchors": ["src/pygerber/console/gerber.py::png", "src/pygerber/console/gerber.py::tiff", "src/pygerber/console/gerber.py::_sanitize_style", "src/pygerber/console/gerber.py::merge_convert_png", "src/pygerber/vm/types/style.py::Style", "src/pygerber/gerber/api/_enums.py::FileTypeEnum"]}
{"id": "C76", "title": "Visitors reach every node once, in the order of the source", "statement": "A visitor of the syntax tree (a class derived from `AstVisitor`) whose methods call the inherited ones is given every node of the file exactly once, a node before the nodes in it and these in the order of the source; a method that does not call the inherited one hides the nodes in its node and no others. Whatever the methods raise, the end of the file is announced exactly once and last; if exceptions are tolerated all later commands are still visited, otherwise none. A listener that a lint rule registers for a type of node is called once for every node of that type.", "quantifier": "every syntax tree, every visitor, every set of listeners, every exception raised at any point", "why_tests_cant": "trees nest without bound and visitors are arbitrary user code that may raise at any node", "anchors": ["src/pygerber/gerber/ast/ast_visitor.py::AstVisitor", "src/pygerber/gerber/linter/event_ast_visitor.py::EventAstVisitor", "src/pygerber/gerber/linter/rules/rule.py::Rule.bind_rule_to_ast_visitor"]}
{"id": "C77", "title": "A saved SVG shows the rendered geometry", "statement": "The file written by saving a Shapely result as SVG is a well-formed document that any reader of SVG shows as the rendered geometry: as large as the bounding box of the geometry, with `y` upwards, filled with the foreground colour exactly at the points that belong to the geometry (holes are left out), without visible outlines and with nothing outside of the frame; an empty result gives an empty document. This holds for every kind of destination and every encoding that the documentation offers.", "quantifier": "every geometry (any number of polygons with any number of holes), every style, every destination, every encoding", "why_tests_cant": "whether the text, the viewBox, the flip, the path data and the textual replacement of the stroke fit together depends on all coordinates at once; tests compare a few files as text", "anchors": ["src/pygerber/vm/shapely/vm.py::ShapelyResult.save_svg", "src/pygerber/vm/shapely/vm.py::ShapelyResult._dump_svg", "src/pygerber/gerber/api/_gerber_file.py::ShapelyImage.save_svg"]}
{"id": "C78", "title": "Raster images have the colours of the style", "statement": "The image rendered with Pillow has the size of the drawing at the resolution asked for; each pixel has the foreground colour of the style where the drawing described by the commands covers it and the background colour elsewhere, row 0 being the top. Saving keeps size and colours in every format, whose names are recognised in any case. In a view of several files each pixel shows the topmost file that has something there.", "quantifier": "every file, resolution and style, every pixel, every number of files in a view", "why_tests_cant": "pixels, boxes and offsets of nested layers interact, and colours go through byte arithmetic; tests compare hashes of a few images", "anchors": ["src/pygerber/vm/pillow/vm.py::PillowResult.get_image", "src/pygerber/vm/pillow/vm.py::PillowVirtualMachine.run", "src/pygerber/gerber/api/_gerber_file.py::_PillowSaveMixin.save", "src/pygerber/gerber/api/_composite_view.py::CompositeView.render_with_pillow"]}
{"id": "C79", "title": "The configuration of the formatter is applied or refused", "statement": "pygerber gerber format uses, under every documented name of an option, the value given in the configuration (the last one if a name occurs more than once) and the documented default otherwise. A configuration that is given twice, cannot be read, is not a JSON object, names an option that does not exist or has a value that is not documented is refused, and then no file is changed. With a documented configuration, and with the presets of the library, the formatted file draws the same as the source.", "quantifier": "every configuration, given on the command line or in a file, every source", "why_tests_cant": "19 options with values of several types and conversions in the validation library; tests use a handful of configurations", "anchors": ["src/pygerber/console/gerber.py::format_cmd", "src/pygerber/gerber/formatter/options.py::Options", "src/pygerber/gerber/formatter/enums.py", "src/pygerber/gerber/formatter/presets.py"]}
{"id": "C80", "title": "Metadata is complete and changes nothing", "statement": "Compiler(include_metadata=True) compiles every file to the same commands, or fails in the same way, as without the option; without the option nothing carries metadata. With it the program carries the file attributes of the file, every shape of an aperture carries the aperture attributes in force at its AD, every command that a D01, a D03 or the completion of a region contour draws carries the object attributes in force, each with its latest value, copies of layers and step and repeat copies keep what they copy, and no command carries attributes that were not in force at a command of the file.", "quantifier": "every file, with and without M00/M02 ignored, every history of commands", "why_tests_cant": "the attributes in force depend on the whole history, and layers are copied recursively; no test compiles with metadata", "anchors": ["src/pygerber/gerber/compiler/compiler.py::Compiler", "src/pygerber/gerber/compiler/compiler.py::MacroEvalVisitor", "src/pygerber/vm/commands/shape.py::Shape", "src/pygerber/vm/commands/command.py::Command", "src/pygerber/vm/rvmc.py::RVMC"]}
{"id": "C81", "title": "Raster images show the file at its place and size", "statement": "GerberFile.render_with_pillow returns an image space that is the smallest box around what the file draws, in the unit of the file and in millimetres, and an image with dpmm pixels per millimetre of that box. Every pixel whose place is farther from the sides of all polygons of the file than one pixel for rounding corners, one for each layer it is pasted through, and the tolerance of the image library has the foreground colour exactly when the file paints this place.", "quantifier": "every file that renders, every resolution and style, every image library that fills polygons by the even-odd rule up to a tolerance", "why_tests_cant": "the error of rounding accumulates through pasted layers and depends on all coordinates; a test compares a few images with stored images", "anchors": ["src/pygerber/gerber/api/_gerber_file.py::ImageSpace", "src/pygerber/gerber/api/_gerber_file.py::GerberFile.render_with_pillow", "src/pygerber/vm/pillow/vm.py::PillowVirtualMachine", "src/pygerber/vm/pillow/vm.py::PillowEagerLayer"]}
{"id": "C82", "title": "Raster images show the picture that the file describes", "statement": "Let a pixel of the image that GerberFile.render_with_pillow returns be farther from every outline that the file draws than two pixels, one for each layer the outline is pasted through, and the tolerance of the image library. Then the pixel has the foreground colour if the commands of the file, read as the Gerber format prescribes, paint the place of the pixel, and the background colour otherwise.", "quantifier": "every file that renders, every resolution and style, every image library that fills polygons by the even-odd rule up to a tolerance, every pixel", "why_tests_cant": "the picture is a set of points of the plane with round outlines, which no stored image represents; it has to agree with the parser's tree, the compiler, the order of layers, the polygons for arcs and the rounding of coordinates at once, for all files", "anchors": ["src/pygerber/gerber/api/_gerber_file.py::GerberFile.render_with_pillow", "src/pygerber/gerber/compiler/compiler.py::Compiler", "src/pygerber/vm/pillow/vm.py::PillowVirtualMachine", "src/pygerber/vm/commands/shape.py::Shape"]}
{"id": "C83", "title": "A board made with the builder is rendered as asked for", "statement": "Make a board with the Gerber builder, write its code to text, parse the text and render it to a raster image. Each pixel that is farther from every outline than two pixels, one for each layer the outline is pasted through, and the tolerance of the image library shows the board: the foreground colour where the last object asked for that contains the place of the pixel was drawn, the background colour where it was cut out or there is none. A pad is its shape, scaled, rotated, mirrored and placed; a trace is what a disc of its width touches on its way; a region is what its outline encloses.", "quantifier": "every sequence of calls of the builder, every resolution and style, every image library that fills polygons by the even-odd rule up to a tolerance, every pixel", "why_tests_cant": "the state that the builder keeps, the rounding to the format, the printer, the parser, the compiler, the layers and the polygons have to agree for all sequences of calls; a test sees a few boards", "anchors": ["src/pygerber/builder/gerber.py::GerberX3Builder", "src/pygerber/builder/gerber.py::GerberCode.dump", "src/pygerber/gerber/parser/pyparsing/grammar.py", "src/pygerber/gerber/compiler/compiler.py::Compiler", "src/pygerber/gerber/api/_gerber_file.py::GerberFile.render_with_pillow", "src/pygerber/vm/pillow/vm.py::PillowVirtualMachine"]}
{"id": "C84", "title": "Vector images show the picture that the file describes", "statement": "The geometry that the Shapely backend gives for a file, and the drawing saved from it as an SVG file, consist of the picture that the commands of the file describe. A point that is further from the arcs of all outlines than the chords by which they are approximated (at most nine thousandths of the radius with the default division) and not on their lines belongs to the geometry exactly when the last object of the picture that contains it is dark. The same holds for boards made with the Gerber builder, written, parsed and compiled.", "quantifier": "every file that compiles and is rendered, every geometry library that gives for the polygon of an outline its inside by the even-odd rule, every division of arcs, every point", "why_tests_cant": "commands, apertures, layers, arcs, polygons and the geometry library have to agree at every point of every file; a test sees a few points of a few files", "anchors": ["src/pygerber/vm/shapely/vm.py::ShapelyVirtualMachine", "src/pygerber/vm/shapely/vm.py::ShapelyResult.save_svg", "src/pygerber/gerber/compiler/compiler.py::Compiler", "src/pygerber/gerber/api/_gerber_file.py::GerberFile.render_with_shapely", "src/pygerber/builder/gerber.py::GerberX3Builder"]}
{"id": "C85", "title": "What is read is what is written", "statement": "When a file is parsed successfully, its text is made of spellings of the commands returned, in the same order, with nothing but blanks between and behind them: no command is left out, added, exchanged with another or read with other values than those written, at the top of the file, in step and repeat blocks and in aperture blocks at any depth. The spellings of every command (letters, numbers, fields, expressions of macros with the binding strength of the operators) are given independently of the parser.", "quantifier": "every text that is parsed successfully, every reading of dates, every nesting of blocks", "why_tests_cant": "the space of texts is infinite and the parser has about ninety rules with ordered choice, optional parts and greedy repetition that can shadow one another", "anchors": ["src/pygerber/gerber/parser/pyparsing/grammar.py::Grammar", "src/pygerber/gerber/parser/pyparsing/parser.py::Parser.parse"]}
{"id": "C86", "title": "What is written is read", "statement": "Every text that spells a list of commands (with any blanks between tokens, any leading zeros, any form of the numbers, words in any case where the case does not matter, G and D codes in one word, missing D01) is parsed, and the result is exactly this list. So the parser refuses no spelling, reads every spelling as intended and no text spells two different files. Left out are apertures with parameters made with a macro named C, R, O or P: their spelling is also that of a standard aperture, and the standard aperture is read.", "quantifier": "every list of commands, every spelling of it, every nesting of blocks, every reading of dates", "why_tests_cant": "the space of spellings is infinite and one rule tried too early or consuming too much hides the spellings of another one", "anchors": ["src/pygerber/gerber/parser/pyparsing/grammar.py::Grammar", "src/pygerber/gerber/parser/pyparsing/parser.py::Parser.parse"]}
{"id": "C87", "title": "Reading goes on as long as there are commands", "statement": "With strict=False the parser returns the commands spelled by the beginning of the text and stops only where no command is spelled: whatever stands behind a text that spells commands, these commands are read, and then the rest is read as if it stood alone. The same holds for the resilient parser.", "quantifier": "every text, every list of commands spelled at its beginning, every continuation", "why_tests_cant": "greedy and ordered rules may read commands differently depending on what follows them; continuations are unbounded", "anchors": ["src/pygerber/gerber/parser/pyparsing/grammar.py::Grammar", "src/pygerber/gerber/parser/pyparsing/parser.py::Parser.parse"]}
{"id": "C88", "title": "The image of a text shows the picture that its commands describe", "statement": "A text that spells commands, in any of the ways in which they can be written (blanks, leading zeros, letter case, number forms), is parsed, and when it is rendered, pixels away from the outlines are in the foreground colour exactly where the picture that the commands describe is covered; the Shapely geometry likewise. Two texts that spell the same commands give the same program and the same image.", "quantifier": "every list of commands, every text that spells it, every clock, set order, recursion limit, resolution, style and fill rule", "why_tests_cant": "the texts that spell one list of commands are infinitely many, and errors of parser, compiler and renderer may compensate in samples", "anchors": ["src/pygerber/gerber/api/_gerber_file.py::GerberFile.render_with_pillow", "src/pygerber/gerber/parser/pyparsing/grammar.py::Grammar", "src/pygerber/gerber/compiler/compiler.py::Compiler", "src/pygerber/vm/pillow/vm.py::PillowVirtualMachine", "src/pygerber/vm/shapely/vm.py::ShapelyVirtualMachine"]}
{"id": "C89", "title": "Correct files are compiled and rendered", "statement": "A file that describes a picture, whose coordinates can be read in the format in force, that selects no aperture before its definition and whose step and repeat blocks are repeated at least once is compiled without an error. If the apertures it flashes and its picture are not empty, the program is executed to the end without an error, and its result is the picture. If they have an area, the Pillow backend renders an image of the picture at every resolution; if no outline is a single line, the Shapely backend gives its geometry. The same holds from the text on, however the commands are written.", "quantifier": "every file (any number of apertures, macros, blocks and repetitions), clock, order of set iteration and recursion limit of at least three", "why_tests_cant": "the absence of errors concerns every combination of commands, macros, blocks and transformations; tests run a few files", "anchors": ["src/pygerber/gerber/compiler/compiler.py::Compiler.compile", "src/pygerber/gerber/compiler/compiler.py::Compiler._resolve_buffer_submit_order", "src/pygerber/gerber/ast/state_tracking_visitor.py::StateTrackingVisitor", "src/pygerber/vm/vm.py::VirtualMachine.run"]}
{"id": "C90", "title": "What is drawn with the RVMC builder is rendered", "statement": "A script enters the main layer, nests layers in the innermost open one under new names, draws circles, rectangles, obrounds, polygons, lines, crosses and Xs on open layers, pastes finished layers on the innermost open one and leaves the layers. The builder raises nothing, and the program it gives is executed to the end: the main layer shows each figure where and in the size asked for, each pasted layer with its origin at the point asked for, in the order of the calls, dark unless negative. The Shapely backend gives this geometry, and the Pillow backend an image of it, away from outlines.", "quantifier": "every script with any number, nesting and order of layers, figures and pastes, any sizes and places, with or without given sizes of layers; every geometry library that gives the inside of polygons by the even-odd rule, every division of arcs, every point", "why_tests_cant": "builder, order of commands, deferred layers, sizes of layers, origins and outlines have to agree for all nestings; a test sees a few pictures", "anchors": ["src/pygerber/builder/rvmc.py::RvmcBuilder", "src/pygerber/builder/rvmc.py::LayerBuilder", "src/pygerber/vm/commands/shape.py::Shape", "src/pygerber/vm/vm.py::VirtualMachine.run", "src/pygerber/vm/shapely/vm.py::ShapelyVirtualMachine", "src/pygerber/vm/pillow/vm.py::PillowVirtualMachine"]}
{"id": "C91", "title": "Highlighting keeps the text and tells codes, numbers and names apart", "statement": "Highlighting a Gerber text ends, and its tokens are non-empty pieces at consecutive positions that together make up the text. In a correct text the letters of coordinates, G, M and operation codes are keywords, numbers are numbers, selections of apertures and parameters of templates are variables, formats and units are constants, names of templates are class names, and nothing is marked as an error.", "quantifier": "every text for the pieces; every text written with any number and order of coordinates, codes, numbers, formats, units, definitions of apertures and templates for the kinds", "why_tests_cant": "the meaning of a character depends on the rules before it, on what precedes and what follows it; tests highlight a few files", "anchors": ["src/pygerber/gerber/pygments.py: GerberLexer"]}
{"id": "C92", "title": "Highlighting of the documentation changes only the kinds of known names", "statement": "The lexer of the documentation yields the tokens of the Python lexer with the same texts and positions; only plain names are given other kinds, namely the classes, functions and properties of the API in theirs, and only in the documentation build.", "quantifier": "every list of tokens and every value of the environment variable, also none", "why_tests_cant": "depends on every token and on the environment", "anchors": ["src/pygerber/gerber/pygments.py: PyGerberDocsLexer.get_tokens_unprocessed"]}
{"id": "C93", "title": "The JSON text of a program holds the whole program", "statement": "RVMC.to_json gives a JSON text of one line. Whoever reads it with any JSON reader and knows the names of classes and fields finds all commands of the program in their order, each with its kind, numbers, flags, layer names and metadata, and the metadata of the program; different programs have different texts.", "quantifier": "every program of any length, shapes of any number of segments, all names of layers and metadata with any characters (quotes, backslashes, line breaks, control characters), all finite numbers", "why_tests_cant": "the text depends on every character of every name and on the classes of all parts; a test compares a few texts", "anchors": ["src/pygerber/vm/rvmc.py::RVMC.to_json", "src/pygerber/vm/types/model.py::ModelType", "src/pygerber/vm/commands/shape.py::Shape", "src/pygerber/vm/commands/layer.py::StartLayer", "src/pygerber/vm/commands/paste.py::PasteLayer"]}
{"id": "C94", "title": "Hovers show the values of attributes and aperture definitions", "statement": "In the markdown that the language server shows for a position, an attribute of an aperture or an object appears on one line with its name and all of its values, in order and each in its own code span, and all attributes found are listed. The hover of an aperture definition lists its template or macro name and every dimension or parameter under the right label, with the numbers of the definition.", "quantifier": "all attributes of apertures and objects with any names, any number of values and any numbers; all aperture definitions with any numbers and any number of parameters", "why_tests_cant": "how an editor reads the markdown depends on every character of every value; a test compares a few texts", "anchors": ["src/pygerber/gerber/language_server/_server/hover/gerber.py::ToMarkdown", "src/pygerber/gerber/language_server/_server/hover/gerber.py::GerberHoverCreator"]}
{"id": "C95", "title": "Files are recognised by their names and by what they declare", "statement": "When the type of a file is to be inferred, it is the layer its suffix stands for, in capital or small letters; if the suffix is general or unknown, it is the layer that the attribute .FileFunction declares, whatever fields follow and however its letters are written; otherwise it is undefined. Images are rendered with the colours that the colour map in force has for this type.", "quantifier": "all suffixes and all texts of the attribute, all requested types and sources, all histories of settings", "why_tests_cant": "names and attributes come from many programs; a test tries a few of them", "anchors": ["src/pygerber/gerber/api/_enums.py::FileTypeEnum.infer_from_extension", "src/pygerber/gerber/api/_enums.py::FileTypeEnum.infer_from_attributes", "src/pygerber/gerber/api/_gerber_file.py::GerberFile._dispatch_style"]}
{"id": "C96", "title": "Job files are read with the files beside them", "statement": "GerberJobFile.from_file succeeds exactly when the file exists, is JSON and has the members of a job with values of their types, whatever other members it has and in whatever order; it keeps the list of files. to_project then reads every file at its path taken from the directory of the job file (absolute paths as they are) and puts it into the views as its function says; a missing file raises an error. A job can also be constructed in memory and given a path.", "quantifier": "every JSON value, path, contents of the disk and list of files", "why_tests_cant": "unbounded JSON trees, paths and disks", "anchors": ["src/pygerber/gerber/api/_gerber_job_file.py::GerberJobFile", "src/pygerber/gerber/api/_gerber_file.py::GerberFile.from_file"]}
{"id": "C97", "title": "The lint command prints every report about every file and nothing else", "statement": "pygerber gerber lint prints for the files given, in their order, one line `path:line:column RULE: message` for every report of the selected rules about the file, in the order of its commands, and no other line. Each line can be read back: it says of which file, line, column and rule it speaks whatever characters the path has. The first file that is missing or cannot be parsed ends the command with an error after the reports about the files before it; without files or with an unknown rule the command fails and prints nothing. list-lint-rules lists exactly the rules that can be selected.", "quantifier": "every list of files, every contents of the disk, every selection of rules, all paths", "why_tests_cant": "any number of files of any length, any paths, and failures at any file; tests run a few files", "anchors": ["src/pygerber/console/gerber.py::lint", "src/pygerber/console/gerber.py::list_lint_rules", "src/pygerber/gerber/linter/__init__.py::lint"]}
