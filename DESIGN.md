# Formal model of pygerber: design

The model lives in `lean/Verif/`. `Verif/Model/*.lean` holds executable definitions that mirror the Python
functions branch by branch, every definition citing file and lines in `/repo` (paths are relative to
`src/pygerber/`). `Verif/Spec/*.lean` holds small specifications written independently of the model where a
property needs one. `Verif/Lemmas/*.lean` holds helper lemmas. `Verif/Props/*.lean` holds the property
theorems, each with an `example` showing that its hypotheses can be met.

## Modelling conventions

* Python `float` is modelled by exact numbers: `Rat` where decimal text matters, an arbitrary linearly ordered
  field or `Real` for geometry. Floating point rounding is therefore outside the model (trusted base). One consequence is
  met in the model: a computed cosine is never zero, an exact one is, so the sense of arcs turned by right angles is decided as
  for neighbouring angles (`Mat.keepsSense`, C30).
* Python exceptions are values (`Except`, or an `Option` beside the state that was reached when they were raised, so
  that partially executed calls are visible). `assert` failures are errors too.
* Dictionaries are association lists with "last write wins" lookup, keeping insertion order where it is observable.
* pyparsing grammars are modelled as ordered-choice (PEG) parsers on character lists with explicit whitespace
  skipping; loops carry fuel or are structurally recursive.
* Visitor dispatch is modelled by `match` on an inductive AST; callbacks are recorded as events.
* A theorem named `cNN_..._partial` proves part of property CNN; `cNN_false_...` refutes it for the unchanged code
  with a witness. Both together say where the property holds.

## Plan per property

| id | what is modelled | how it is proved |
|----|------------------|------------------|
| C01-C04 | `CoordinateFormat` pack/unpack on character lists, round-half-even decimal printing | digit arithmetic, induction on lists |
| C05-C10, C56 | `StateTrackingVisitor` as a step function emitting drawing events | invariants by induction over command lists; refinement to history specifications |
| C11-C13 | expression grammar, printer and evaluator | structural induction; printer/parser inversion by induction on trees |
| C14-C22 | `Compiler` buffers, transforms, regions, step-repeat; submit order | invariants over events, well-founded graph arguments, refutations by concrete witnesses |
| C23 | `RvmcBuilder`/`LayerBuilder` as nested scripts | induction over call histories |
| C24-C26 | `VirtualMachine` command loop | invariants by induction over programs, denotational semantics |
| C27-C32 | `Box`, `Vector`, `Matrix3x3`, segments and shapes | ordered-field algebra; real analysis for arcs |
| C33-C38 | `GerberX3Builder` and sub-builders | simulation relation between builder state and reader state |
| C39-C42, C58, C59 | `Formatter` and command grammar | printer/parser inversion per command, lifted to lists |
| C43, C57 | `Color` | digit arithmetic |
| C44 | `NodeFinder._bin_search` | induction on list length |
| C45 | `GRB001` over flattened traversal | induction over node lists |
| C46 | `Position` operators | case analysis |
| C61 | draws of `Compiler`, outlines of `Shape` | real geometry: points enclosed by the closed rim of each shape (intermediate values) |
| C62 | `Grammar`, `Formatter`, `View`, `State`, `Compiler` | C59, and the visitor ignores layout (induction over nodes) |
| C63 | `View` (attribute names), `State` (attribute tables) | case analysis, lemmas on dictionaries |
| C64 | `State`, `Compiler`, `Vm`, `Render` | C55, then induction over the layers of the program against an inductive description of images |
| C65 | `Compiler` (definitions, macros, flashes), `Shape` | points enclosed by the closed rim of each shape, induction over macro bodies, images under similarities |
| C66 | `GerberBuilder`, `Dump`, `Formatter`, `Grammar`, `View`, `Compiler` | invariant of the builder state (everything printable), C40, rewriting of negative constants |
| C67 | `Grammar`, `Resilient` | every command reads at least one character (structural), repetition without fuel, simulation of the strict parser |
| C68 | `Spans` (the grammar with positions), `Finder` | forgetting positions gives `Grammar`; every rule covers what it reads (structural induction); C44 |
| C69 | `SourceHash`, `Spans` | list lemmas; the digest is a parameter |
| C70 | `Linter`, `Spans`, `Formatter` | invariant of rule objects over the visit; induction on trees for positions; C59 for the formatter |
| C71 | the `format` command on a disk, with the disks a killed process can leave | case analysis over the moments, C62 for success |
| C72 | shapes as objects with a stored box | invariant over histories |
| C73 | completion requests from the text to the items | induction over positions and histories of commands; evaluation of the grammar on the snippets |
| C74 | the whole path from commands to the image: `State`, `Compiler`, `Vm`, `Shape`, against `Spec/Picture` | induction over the commands: the layers of the compiler show what the sheet holds; C64 for the program, C17, C61, C65, C18, C22 for the single commands |
| C75 | the options of `convert` and `merge-convert`, `_sanitize_style`, the presets, on top of `GerberFile` and `Composite` | the choices are finite, colours are read as in C43; the rest by cases |
| C76 | all methods of `AstVisitor` over arbitrary overriding methods with state and exceptions, `EventAstVisitor` | a tour over the tree as an inductive relation; the walk is the tour by structural induction, listeners are a special visitor |
| C77 | `_dump_svg`, `save_svg`, the `svg` methods of Shapely's polygons, collections; `ShapelyImage` | a reader of XML and SVG with the even-odd rule as the specification; the text is parsed symbolically for all coordinates |
| C78 | `PillowResult`, `_PillowSaveMixin`, pasting in `CompositeView`, Pillow's `paste`, `composite`, `convert` on bytes | the layers of a program described by an inductive relation on pixels; the machine computes it by induction over the layers; byte arithmetic by linear arithmetic |
| C79 | `format_cmd` up to the call of the formatter, `Options` with the conversions of pydantic, presets | the documented options as a table; every conversion of a field shown equivalent to a relation between given and used values |
| C80 | the compiler again, with the field `metadata` of every command | forgetting metadata commutes with every method; invariant over histories on all metadata in the buffers; one theorem per kind of command |
| C81 | `render_with_pillow` from the syntax tree to the picture, and `ImageSpace` | polygons whose corners move by less than the distance of a point to their sides keep the point inside (crossing parity, by triangles); induction over pasted layers |
| C82 | the whole way from commands to pixels | C74 (what the layers paint is the picture) and C81 (pixels are right for polygons) joined by: a polygon that follows an outline closely contains, away from the outline, the points that the outline surrounds. Outside: the polygon can be moved to infinity (crossing parity is constant off the sides). Inside: each figure is split by a line into two halves whose boundaries are graphs, or crossed once by a ray; an invariant of the compiler shows that it draws such figures only |
| C83 | calls of the builder, the text of the board, its pixels | the form of the commands of each object (Lemmas/BoardForm) and what the visitor reports for them (C33) determine the sheet of C74 (Lemmas/BoardPicture, an invariant over the commands); the file has none of the constructs that C74 and C82 exclude (Lemmas/BoardImage); then C66 and C82 |
| C84 | the Shapely backend and the saved drawing | the triangle over a chord lies within the height of the bow, so dividing chords again does not move them over a point further away (Lemmas/Bow); in the limit the polygons are the areas of C74, by the compactness of C82; induction over the layers; then C77 and C66 |
| C85 | the whole grammar (Model/Grammar) against a separate description of the spellings of every command (Spec/Written) | for every rule: what it consumes is in the language of what it returns (Lemmas/Written, WrittenCommands, WrittenFile); expressions by induction on the fuel, blocks by induction on the depth |
| C86 | as C85 | for every rule: on every spelling of its command, followed by anything, it returns the command and the rest (Lemmas/ReadExpr, ReadToken, ReadRules, ReadCommands, ReadCodes, ReadMacro, ReadAttributes); the rules tried before it fail; blocks by induction on the spelling (Lemmas/ReadFile) |
| C87 | as C85, Model/Resilient | from the reading lemmas of C86, which hold for every continuation, and the independence of the nesting bound |
| C88 | as C82, C84 and C86 | by composition: a spelled text is parsed as its commands, whose image shows their picture |
| C89 | visitor, compiler and virtual machine as in C74 | induction over the commands with the invariant that layers are nested in three levels (thermals, apertures, the rest), so that copying, ordering and execution of layers end without an error; for Pillow, that every layer with an area has a shape that does not lie on a line, so that its box has a width and a height; for Shapely, that no shape is a single line, so that its ring has four points |
| C90 | the calls of the RVMC builder with their figures (`RvmcFigures`), the builder (`RvmcBuilder`), the machine | induction over the calls with the invariant that the commands of the open layers are those of a tree whose nodes draw what was asked for and paste only layers that are complete; evaluation of such trees (C26), areas of shapes (C31, C65), polygons away from outlines (C84); images: the same induction with the distance of pixels from outlines growing by one for each paste, figures of positive size having boxes of positive size |
| C91 | the table of regular expressions (`Lexer`), matching with backtracking, looking behind and ahead, the loop over the table | induction over the expression for what a match consumes and may begin with; induction over the words of a text, with the invariant that the lexer looks behind for nothing that precedes a word |
| C92 | the map over the tokens of the Python lexer (`Lexer.docTokens`) | cases for every token |
| C93 | `RVMC.to_json` down to the characters of the text (`RvmcJson`) | induction over JSON values: a reader of JSON written independently reads back what the serializer writes; the fields of every class are found by their names |
| C94 | `ToMarkdown`, the sections of attributes and `on_adc` … `on_ad_macro` of the hovers down to the characters (`HoverText`) | a reader of code spans as CommonMark defines them and of the lines of lists, written independently; induction over the spans and lines of the texts |
| C95 | `infer_from_extension`, `infer_from_attributes` and the choice of the style in `GerberFile` (`FileType`, `GerberFile`) | tables of suffixes and functions written independently; a case distinction over requests and sources, with the freshness invariant of C52 |
| C96 | `GerberJobFile`: validation, `from_file`, `to_project` with reading of files (`JobFile`, on top of `Project`) | places in JSON trees as an inductive relation; validation finds exactly these; paths by the lemmas of splitting at `/`; views by C51 |
| C97 | the commands `lint` and `list-lint-rules` (`LintCommand`, on top of `Linter`) | induction over the files with C70 for each; lines are split at their last separators, which the parts after them do not contain |
| C47, C60 | hover preview program and text | case analysis over states, induction over histories |
| C48, C49 | document cache, locks and handlers as a transition system | invariants over all schedules |
| C50-C53 | file types, colour maps, job file views, caches, pixel arithmetic | finite tables, list induction, integer arithmetic |
| C54, C55 | arc angle generation, painting semantics | induction over steps / objects |


## Trusted base

1. Lean's kernel (4.33.0) and Mathlib's definitions. No axiom is added; `sorry`, `native_decide`, `bv_decide`,
   `implemented_by`, `unsafe` and `extern` are not used. Concrete witnesses are closed by `decide`, `decide +kernel`
   or `rfl`, all checked by the kernel.
2. The axioms of each theorem (from `#print axioms`; refreshed at every milestone):
   * `Classical.choice`, `Quot.sound`, `propext`: every theorem of `MANIFEST.json` not listed below (410 theorems).
   * no axioms: `State.c08_empty_fails`, `Position.c46_false_ne`, `Position.c46_false_ge`, `Position.c46_false_le`, `Highlight.c91_false_load`.
   * `propext`: `Resolve.c16_false_cycle`, `Geom.c27_union_least`, `Geom.c27_union_points`, `Geom.c27_union_laws`, `Geom.c27_from_vectors`, `Finder.c44_single_node`, `Lint.c45_reports_exactly`, `Position.c46_editor`, `Highlight.c92_false_unset`, `LintCommand.c97_clear`.
   * `Quot.sound`, `propext`: `Resolve.c16_false_diamond`, `FlashImage.c17_files_nested`, `Geom.c29_constructors_affine`, `Geom.c29_apply_matmul`, `Geom.c29_matmul_assoc`, `Geom.c29_named`, `Geom.c29_distances`, `Format.c42_false_iff`, `Color.c43_canonical`, `Finder.c44_false_before`, `Position.c46_order_partial`, `Position.c46_actual`, `Position.c46_offset`, `Server.c48_false_closing`, `Spans.c68_tabs_lines`, `SourceHash.c69_line_ends`, `Linter.c70_names`, `Linter.c70_command_line`, `Walk.c76_tour`, `Walk.c76_base`, `Walk.c76_every_node_once`, `Walk.c76_end_of_file`, `Walk.c76_tolerant`, `Walk.c76_raises`, `Highlight.c91_false_marks`, `Highlight.c92_docs_partial`, `LintCommand.c97_listed`.
3. The fidelity of the model, which was written by reading the source; nothing was executed. Every definition cites
   the lines that it models and says where it simplifies.
4. Numbers. Python `float` is exact in the model (`Rat` where decimal text matters, `Real` or an arbitrary ordered
   field for geometry). No theorem speaks about rounding, overflow, NaN or infinities of IEEE arithmetic, except that
   the default bounding box uses infinities (`EReal`).
5. Libraries. `pyparsing`, `pydantic`, `numpy`, `Pillow`, `shapely`/GEOS, `pygls` are not modelled beyond the laws
   stated where they are used: PEG choice and whitespace skipping for `pyparsing`, polygon filling as a parameter for
   Pillow and GEOS, message order for `pygls`.

## What is modelled and what is not

| module of the model | code (below `src/pygerber/`) | not modelled |
|---|---|---|
| Text, Coord | `gerber/ast/state_tracking_visitor.py` `CoordinateFormat` (pack, unpack) | float rounding |
| State | `gerber/ast/state_tracking_visitor.py` (all commands, attributes, transforms), traversal of `gerber/ast/ast_visitor.py` for files, blocks, step and repeat | comments, deprecated commands without effect |
| Expr, Fmt | expression rules of `gerber/parser/pyparsing/grammar.py`, `gerber/ast/expression_eval_visitor.py`, expression and number printing of `gerber/formatter/formatter.py` | packrat cache, error messages |
| Macro, Compiler, Rvmc | `gerber/compiler/compiler.py` (all handlers), `vm/rvmc.py`, `vm/commands/*` | logging |
| Shape, Geom | `vm/commands/shape.py`, `vm/types/{box,vector,matrix}.py`, `vm/commands/shape_segments/*` | float rounding |
| Vm | `vm/vm.py` | plugin registry |
| Render | `vm/shapely/vm.py`, `vm/pillow/vm.py` (layers, arcs to points, painting order, pasting) | rasterisation and GEOS set operations (parameters with stated laws), SVG text, image files |
| RvmcBuilder | `builder/rvmc.py` | `write`/file helpers |
| GerberBuilder | `builder/gerber.py` (pads, custom pads, attributes, traces, regions, `get_code`) | `set_standard_attributes`-style file attributes, text (see Formatter) |
| Peg, Syntax, Grammar | `gerber/parser/pyparsing/grammar.py` (all rules, default switches), the expansion of tabs by `parse_string` of pyparsing, `gerber/ast/nodes/*` (fields, validation) | source locations, packrat cache, error messages, resilient mode, pydantic date parsing (parameter with stated law) |
| Formatter | `gerber/formatter/formatter.py`, `options.py`, `enums.py` | output streams |
| Color | `vm/types/color.py` | - |
| Finder, Position | `gerber/ast/node_finder.py`, `common/position.py` | - |
| Hover | `gerber/language_server/_server/hover/gerber.py` (limited visitor, preview programs, text of draw commands) | markdown layout, image encoding |
| Server | `gerber/language_server/_server/server.py`, `document_cache.py`, `documents/document.py`, `documents/gerber.py` (handlers, locks, caches) | pygls and the network (its loop is modelled: workspace updated on arrival, handlers as tasks in order of arrival), log messages, `initialize`; parsing, hover and completion are arbitrary functions |
| View | the fields of the nodes in `gerber/ast/nodes` as the visitors read them (`attribute_name`, `SRopen` numbers, node identity) | attribute values are flattened to text |
| Dump | `builder/gerber.py` `GerberCode.dumps`: the nodes of the builder and their formatting with the default options | raw attribute values are split at commas as the node classes hold them |
| Resilient | `grammar.py` `build_resilient`, `_invalid_token`; `parser.py` with `strict` | - |
| Spans | `grammar.py` again with `make_unpack_callback`; `ast/nodes/base.py` `SourceInfo`, `__len__` | positions of coordinates, points and expressions inside a command |
| SourceHash | `ast/nodes/attribute/TF.py` `TF_MD5.check_source_hash` | the digest function (a parameter), UTF-8 |
| Linter | `linter/__init__.py` `lint`, `linter/linter.py`, `linter/event_ast_visitor.py`, `linter/rules/*.py`, option `-r` of `console/gerber.py` `lint` | descriptions of violations, output of the command |
| FormatCommand | `console/gerber.py` (`format`), `GerberFile.from_file`, `GerberFile.format` | reading of options, encodings, line end translation, permissions |
| Console | `console/gerber.py` (`convert`, `merge-convert`, `_sanitize_style`), `vm/types/style.py` | the reading of command lines by `click` but for choices, numbers that are not numbers, the encoders |
| Walk | `gerber/ast/ast_visitor.py`, `gerber/linter/event_ast_visitor.py`, `visit` of all nodes | return values of methods (always the node), exceptions that are not an `Exception` |
| Svg | `vm/shapely/vm.py` (`ShapelyResult`), `ShapelyImage`, `svg` of Shapely geometries | how numbers are printed (a parameter, assumed to be readable as the number), `scale_factor`, files as such |
| Raster | `PillowResult` (`vm/pillow/vm.py`), `_PillowSaveMixin`, pasting in `_composite_view.py` | the encoders of the image library, keyword arguments passed to them |
| Config | `format_cmd` (`console/gerber.py`), `Options`, `enums.py`, `presets.py` of the formatter | `json.loads` and the reading of numerals by pydantic are parameters |
| Metadata | `Compiler` with `include_metadata` (`gerber/compiler/compiler.py`) | an attribute is the text standing for its node instead of the JSON text made of it |
| ImageSpace | `ImageSpace`, `GerberFile.render_with_pillow` (`gerber/api/_gerber_file.py`) | without the caches of `GerberFile`, with the style given |
| RvmcFigures | `builder/rvmc.py` (the drawing methods and scripts that call them) | numbers are real; where a call fails for two reasons only one of them is reported |
| Lexer | `gerber/pygments.py` (`GerberLexer`, `PyGerberDocsLexer`) | Python's `re` and `RegexLexer` of pygments as documented; `get_tokens`, which normalises newlines, and `PythonLexer` (its tokens are a parameter) |
| RvmcJson | vm/rvmc.py `to_json`, vm/types/model.py, fields of vm/commands and vm/types | finite numbers, whose texts are a parameter; no keyword arguments |
| HoverText | hover/gerber.py `ToMarkdown`, `_aperture_attributes`, `_object_attributes`, `on_adc` … `on_ad_macro` | dictionaries of attributes as lists of nodes; the picture and the reference to the specification are given texts |
| JobFile | `gerber/api/_gerber_job_file.py` (all classes, `from_file`, `to_project`) with paths and a disk | the JSON text (parameter), conversions of numbers by Pydantic (parameter) |
| LintCommand | `console/gerber.py` `lint`, `list-lint-rules` | reading and resolving of paths are parameters; reading of options by `click` |
| ShapeCache | `vm/commands/shape.py` (`outer_box`, `transform`) as objects with a `__dict__` | caches of segments, which are never copied |
| Completion | `gerber/language_server/_server/documents/gerber.py` (`on_completion` and the item lists) | `kind`, `detail` and documentation of items; UTF-16 positions |
| Lint | `gerber/linter/*` (rule GRB001 and traversal) | other consumers of the event visitor |
| FileType, GerberFile | `gerber/api/_enums.py`, `gerber/api/_gerber_file.py` (type inference, caches, colour maps) | file system, decoding |
| Project, Composite | `gerber/api/_gerber_job_file.py`, `_project.py`, `_composite_view.py` | image decoding |

Not modelled at all: `console/*` (command line) but for `convert`, `merge-convert`, `format`, `lint` and `list-lint-rules`, `examples/*`, `gerber/spec/*` (static texts).

Simplifications are stated at each definition. The larger ones are these.

* The compiler works on the events of the state tracking visitor rather than on node objects; the identity of nodes is
  a number where it is observable (thermal layers are keyed by identity).
* The Pillow and Shapely backends paint on an abstract canvas of points; `ImageDraw.polygon` and GEOS union/difference
  are the point sets that they stand for.
* The builder writes a list of commands; that its text is read back as this list is the subject of C40.

## Disagreements between code and documented behaviour

Each line is a defect of the unchanged code found while modelling. Those with a theorem are proved of the model.

* C02: a format without integer or without decimal digits reads numbers that it cannot write
  (`c02_false_no_decimals`, `c02_false_no_integers`).
* C09: `ignore_program_stop` is inverted: by default commands after `M02` are executed, with the flag they are not
  (`c09_false_default`, `c09_false_ignore`).
* C10: an `AD` beats a later `AB` with the same code (`c10_false_ad_and_ab`).
* C12: positive constants below 1e-4 are printed with an exponent, which the grammar rejects
  (`c12_false_small_constants`).
* C13: nested signs are printed without parentheses and read back as another tree (`c13_false_minus_plus`).
* C15: the layer of a thermal is named after its node, so two instances with different parameters share a layer
  (`c15_false_thermal`).
* C16: a diamond of layer dependencies is reported as a cycle, and a true cycle ends in `RecursionError`
  (`c16_false_diamond`, `c16_false_cycle`).
* C18: step and repeat copies are displaced by the current point (`c18_false_displaced`).
* C19: transformed copies of an aperture are cached by code and survive a redefinition (`c19_false_flashed_before`).
* C20: single-quadrant arcs inside a region are dropped (`c20_false_single_quadrant`).
* C21: flashes of block apertures ignore the polarity (`c21_false_block`).
* C22: a full circle outside a region is drawn as a dot (`c22_false_full_circle`).
* C23: a name used twice, and pasting a finished layer on an outer layer while its maker is open, give programs that
  fail (`c23_false_duplicate`, `c23_false_outer_paste`).
* C25: after an empty automatically sized layer the handlers stay deferred; an empty main layer raises
  `AssertionError`; pasting an empty layer fails (`c25_false_handlers`, `c25_false_main`, `c25_false_paste`).
* C28: the box of a full counter-clockwise turn misses it (`c28_full_ccw_turn_escapes`); C31: the clockwise
  angle can be 360 (`c31_clockwise_can_be_360`); C32: regular polygons with a large base rotation lose corners
  (`c32_polygon_loses_corners`).
* C34, C35: `RegionCreator.create` does not record the plot mode that it leaves behind, so a later trace can be drawn as
  an arc (`c34_false_line_drawn_as_arc`).
* C36: the builder records state changes before packing raises; later files select no aperture or are drawn with the
  wrong transformation (`c36_false_never_selected`, `c36_false_not_rotated`).
* C38: a custom attribute named like a standard one always wins (`c38_false_standard_name`).
* C39: zero decimal places with trimming prints an empty or wrong number (`c39_false_zero_places`).
* C43: colours with a trailing newline are accepted (part of `c43_reads`).
* C44: the node search compares columns only (`c44_false_next_line`, `c44_false_before`).
* C40: formatting changes or breaks partial `SR` headers, attributes with missing fields, macros named like standard
  apertures and very small numbers (`c40_false_step_repeat`, `c40_false_missing_fields`,
  `c40_false_macro_named_like_standard`, `c40_false_small_numbers`).
* C41: a removed G54 still writes its indentation; the D code after it is indented only the second time
  (`c41_false_removed_indent`).
* C42: `SR` headers are wrong unless all four parameters or none are present (`c42_false_iff`,
  `c42_false_partial_headers`).
* C45: deleting a reported `G01` after a program stop inside `SR` changes the drawing (`c45_false_stop_in_sr`).
* C46: `!=`, `>=` and `<=` of positions are wrong (`c46_false_ne`, `c46_false_ge`, `c46_false_le`).
* C50: the default colour map has no drill map (`c50_false_drillmap`).
* C51: inner layers are ordered by text (`c51_false_inner_order`).
* C52: the remembered file type survives a change of parser options (`c52_false_remembered_type`,
  `c52_false_file_type`).
* C47: hover previews: counter-clockwise arcs are previewed clockwise, clear polarity as dark, region contours as strokes,
  block apertures not at all, an omitted I or J as 0, the start rounded after a change of format, nothing when the format
  has no decimals, and a macro aperture with a later definition of its macro (eight `c47_false_*` witnesses).
* C60: the hover text shows the centre offset as the centre, and in a block the state before the block
  (`c60_false_centre`, `c60_false_in_block`).
* C48: a close notification that arrives before the handler of an earlier change has run makes that handler read the
  file from disk, and a waiting request is answered from it (`c48_false_closing`).
* C53: composite images cut off a row or column, or mix units (`c53_false_straddling`, `c53_false_units`,
  `c53_false_empty`); files in inches are drawn 25.4 times too small for the places they are put at (`c53_false_inches`).
* C54: full turns: endless loop (Shapely, clockwise), single point (Shapely, counter-clockwise), assertion (Pillow).
* C56: an arc without I or J uses the value of an earlier arc (`c56_false_omitted`).
* C58: switching trimming of zeros off has no effect (`c58_false_no_effect`, `c58_false_trimmed`).
* C59: a file of which nothing is left cannot be parsed; explicit parentheses stay in the parsed file
  (`c59_false_empty`, `c59_false_explicit_parenthesis`).
* C61: draws ignore the scale of the aperture, and draw rectangles with round ends (`c61_false_scaled`,
  `c61_false_rectangle`); in single-quadrant mode circular draws paint nothing (`c61_false_single_quadrant`).

Noted while reading, without a theorem: `DPMMTooSmallError` is unreachable; `G91` is ignored; the compiler ignores the
unit mode; the number of points of an arc is computed from the angle difference before wrapping; `%` on floats may give
360.0; a program stop in an `AB` or `SR` body skips `_pop_buffer`; `RegionCreator.create` can be called repeatedly and
keeps the closing line.
* C62: a step and repeat with missing parameters does not survive formatting (`c62_false_step_repeat`,
  `c62_false_copies_lost`).  With explicit parentheses `-(+$2)` is printed as text the parser rejects (`c62_false_minus_plus`).
* C63: `TO.CMPN` is stored under the name `.CMNP`, so that `%TD.CMPN*%` does not delete it (`c63_false_cmpn`).
* C65: a polygon primitive with a rotation is rotated twice (`c65_false_polygon`); a moiré whose ring has no room for its
  hole raises `AssertionError` (`c65_false_moire`), one that runs out of room draws a stray disc (`c65_false_moire_room`);
  a thermal whose gap times √2 is at least the inner diameter draws nothing although four pieces are left
  (`c65_false_thermal`).
* C66: numbers below 0.0001 are dumped with an exponent, which the parser does not accept (`c66_false_small`); the value of a
  custom attribute is written as it is, so delimiters in it become commands (`c66_false_delimiters`).
  A tab in the value of an attribute becomes spaces (`c66_false_tabs`).
* C67: the resilient parser refuses blank texts, so opening an empty document in the language server raises
  (`c67_false_blank`); a command with a value that is not allowed (`%TF.Part,Box*%`) aborts it as it aborts the strict parser
  (`c67_false_raises`).
* C68: the length of a node is the sum of the lengths of its tokens, so the range of a command with blanks in it, and of every
  macro or block on several lines, ends too early (`c68_false_blanks`).
  pyparsing expands tabs before parsing, so columns behind a tab are wrong (`c68_false_tabs`).
* C69: `source[: location - 1]` leaves out the character before the command if that is not a line break
  (`c69_false_same_line`), is everything but the last character at location 0 (`c69_false_first`), and is a slice of the text
  with expanded tabs (`c69_false_tabs`).
* C71: the output is opened for writing before the source is parsed, so a source with a mistake empties the output
  (`c71_false_old_output`) and, when formatting in place, the source itself (`c71_false_in_place`).
* C72: `Shape.transform` copies the stored bounding box, so a shape transformed after its box was read reports the box
  of the original (`c72_false_stale`).
* C73: asking for extended commands before the first aperture is defined raises `ValueError` (`c73_false_first`); a
  command that cannot be executed anywhere in the document makes the request fail (`c73_false_elsewhere`); `G54` to `G91`
  are offered without `*` and remain unreadable (`c73_false_g_codes`), as do extended commands until the user types the
  closing `%` (`c73_false_unclosed`); on a blank line below an unreadable one its items are offered (`c73_false_below`);
  a code that is both an `AD` and an `AB` aperture is offered twice (`c73_false_twice`).
  Behind a tab the cursor is taken to be further left than it is (`c73_false_tabs`).
- C75: `-t` offers the names of the file types but looks the word up among their values, so `-t NON_PLATED` is taken for
  an undefined type and rendered in its colours (`c75_false_non_plated`); a foreground that is not a colour is reported
  as a fault of `--background` (`c75_false_blamed`); `merge-convert` without sources ends with the `ValueError` of `max`
  (`c75_false_no_sources`).
- C76: `EventAstVisitor` calls the listeners both in the method of a node and in that of its group, so a listener for
  `ADC`, an attribute, an expression or a coordinate is called twice for each node (`c76_false_called_twice`), one for
  `File` again at the end (`c76_false_file_twice`), and one for a base class such as `AD` never (`c76_false_base`).
- C77: Shapely fills with an opacity of 0.6, which is not replaced, so an opaque foreground is see-through
  (`c77_false_opacity`). A file opened by the caller is no instance of `typing.BinaryIO` and is refused, although the
  documentation offers files (`c77_false_open_file`). Each piece is encoded on its own, so that UTF-16 gives a byte order
  mark before each (`c77_false_encoding`). `ShapelyImage.save_svg` drops its keyword arguments (`c77_false_keyword`).
  Width and height are given without a unit: one pixel for each millimetre.
- C78: a view pastes each image with its own alpha channel as the mask, which multiplies alpha by itself: a foreground with
  alpha 128 is shown with alpha 64 and half as bright (`c78_false_translucent`). WEBP images are converted to RGB first, so
  that a transparent background is saved as opaque black (`c78_false_webp`).
- C79: a configuration with a misspelt name is accepted and the name is ignored (`c79_false_unknown`). Any text is accepted as an
  indentation, also `"4"`, which is written into macros and makes them unreadable; `true` is taken for 1 (`c79_false_values`).
  The documented default of `empty_line_before_polarity_switch` is `Yes`, the actual one is `No` (`c79_false_default`).
- C80: `_get_region_metadata` builds a dictionary and returns nothing, so regions carry no attributes (`c80_false_region`).
  The rings of a moiré and the command that pastes a thermal are made without metadata (`c80_false_target`). The object attributes
  in force at a flash of a block aperture are lost (`c80_false_block`).
- C81: neither the compiler nor the virtual machines convert units, so the image of a file in inches has `dpmm` pixels per inch,
  25.4 times too few, while its image space says `dpmm` pixels per millimetre (`c81_false_inches`).
- C89: the Pillow backend asserts that layers have a width and a height, so a file whose picture lies on a line (a rectangle of
  height 0) ends with an AssertionError; the theorem asks for pictures with an area. A region whose contour is a single line makes the Shapely backend raise (a ring needs four
  points); the theorem excludes such contours. An aperture polygon whose rotation leaves one side of it (see C32) has the same effect.
- C90: `RvmcBuilder` polygons with a rotation of more than one of their steps lose corners, as in C32: a square turned by 180 degrees is a
  triangle (`c90_false_polygon`).
- C91: `GerberLexer` has no rule for `*`, `%` and `,`, so every correct file is full of error tokens (`c91_false_marks`); the rules for the
  letters of coordinates ask for a digit right behind them, so that the `X` of `X-5` is an error as well, and names of templates are found only
  behind aperture numbers of up to three digits (`c91_false_signed`).
- C91: the lexer has no rule for `LP`, `LM`, `LR`, `LS` and `LN`, so their codes are error tokens (`c91_false_load`), and no rule that ends a
  comment: its text is marked as if it were commands (`c91_false_comment`).
- C92: `PyGerberDocsLexer` reads `os.environ["MKDOCS_MODE"]` and raises `KeyError` where it is not set (`c92_false_unset`).
- C94: the name `.C` is shown inside the label `Component reference designator(.C`, and `.CMPN` is shown as `.CMNP` (`c94_false_name`); of
  a flashed text only the string is shown, not mode, mirroring, font and size (`c94_false_flash`); a backtick in a value splits it and
  empty values run together (`c94_false_ticks`); a missing pin function looks like the function `None` (`c94_false_none`); the hover of an
  aperture definition looks attributes up in the state before the definition, so it does not show the attributes of the aperture
  (`c94_false_own`).
- C95: suffixes with numbers are only understood in small letters (`.G1` is undefined), mechanical layers (`.gm1`) are taken for copper, and
  what follows the number is ignored (`c95_false_numbered`).
- C96: the documentation says that a `GerberJobFile` can be constructed by hand, and `to_project` takes a path for this case; but
  `model_post_init` subscripts the context, which the constructor does not have: every construction raises `TypeError`
  (`c96_false_constructed`).
